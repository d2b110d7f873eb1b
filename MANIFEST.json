{
 "claims": [
  {
   "property": "C01",
   "status": "proved",
   "theorems": [
    "Lbm.C01_step",
    "Lbm.C01_streaming_pattern_equals_textbook",
    "Lbm.C01_patterns_agree",
    "Lbm.predefined_supported"
   ],
   "note": "C01_step: any cell set on any lattice; C01_streaming_pattern_equals_textbook: complete (periodic) lattice, any number of steps. Supported = valid stencil, inverse-closed for in-place patterns, for esopull/esopush rest velocity first and entries from Lehmann's table."
  },
  {
   "property": "C02",
   "status": "proved",
   "theorems": [
    "Lbm.C02_inplace_race_free"
   ],
   "note": "Includes all interleavings of individual loads and stores."
  },
  {
   "property": "C03",
   "status": "proved",
   "theorems": [
    "Lbm.C03_two_array_writes_once"
   ],
   "note": ""
  },
  {
   "property": "C04",
   "status": "proved",
   "theorems": [
    "Lbm.C04_split_equals_fused"
   ],
   "note": ""
  },
  {
   "property": "C05",
   "status": "proved",
   "theorems": [
    "Lbm.C05_streaming_conserves_totals"
   ],
   "note": ""
  },
  {
   "property": "C06",
   "status": "partial",
   "theorems": [
    "Lbm.C06_accessor_rejects_exactly",
    "Lbm.C06_timesteps_alternate",
    "Lbm.C06_esoteric_rejects_other_sizes",
    "Lbm.C06_rest_not_first_mistranslated"
   ],
   "note": "The rejection part is exact. The full claim is false: esopull/esopush accept a stencil whose rest velocity is not first and mistranslate it (C06_rest_not_first_mistranslated is the witness)."
  },
  {
   "property": "C07",
   "status": "proved",
   "theorems": [
    "Lbm.C07_proxies_address_right_slots",
    "Lbm.C07_inplace_both_rejected"
   ],
   "note": "Dimensions up to 3, as the code's offset arrays support."
  },
  {
   "property": "C08",
   "status": "proved",
   "theorems": [
    "Lbm.C08_no_slip_is_bounce_back",
    "Lbm.C08_link_order_irrelevant"
   ],
   "note": ""
  },
  {
   "property": "C09",
   "status": "proved",
   "theorems": [
    "Lbm.C09_closed_domain_conserves_mass",
    "Lbm.exists_allLinks"
   ],
   "note": ""
  },
  {
   "property": "C10",
   "status": "proved",
   "theorems": [
    "Lbm.C10_mirror_involutive",
    "Lbm.C10_predefined_mirrorClosed",
    "Lbm.C10_accepted_normals",
    "Lbm.C10_given_normal_specular",
    "Lbm.C10_automatic_normal_specular"
   ],
   "note": "The tangentially displaced cell has to be fluid (hypothesis)."
  },
  {
   "property": "C100",
   "status": "partial",
   "theorems": [
    "Lbm.CompiledMacro.C100_setter_compiles",
    "Lbm.CompiledMacro.C100_setter",
    "Lbm.CompiledMacro.C100_round_trip",
    "Lbm.CompiledMacro.C100_setsMacro",
    "Lbm.CompiledMacro.C100_getter_in_bounds",
    "Lbm.CompiledMacro.C100_predefined",
    "Lbm.CompiledMacro.C100_getter_names",
    "Lbm.CompiledMacro.C100_inplace_needs_timestep",
    "Lbm.CompiledMacro.C100_setter_excludes_partial",
    "Lbm.CompiledMacro.C100_setter_sets_ghost_layers",
    "Lbm.CompiledMacro.C100_setter_ignores_arguments",
    "Lbm.CompiledMacro.C100_density_deviation"
   ],
   "note": "Proved except for the part about excluded cells, which is false of the code: the setter ignores ghost_layers and iteration_slice (C100_setter_ignores_arguments characterises when nothing goes wrong). The setter also rejects density_deviation, which is among the conserved quantities."
  },
  {
   "property": "C101",
   "status": "partial",
   "theorems": [
    "Lbm.StrainRate.C101_pre_two_arrays",
    "Lbm.StrainRate.C101_pre_inplace_reversed",
    "Lbm.StrainRate.C101_set_pre_inplace",
    "Lbm.StrainRate.C101_symbols",
    "Lbm.StrainRate.C101_assignments",
    "Lbm.StrainRate.C101_flow_is_steady",
    "Lbm.StrainRate.C101_strain_rate",
    "Lbm.StrainRate.C101_from_array",
    "Lbm.StrainRate.C101_undefined_symbols",
    "Lbm.StrainRate.linearEq_is_order_one"
   ],
   "note": "Exact value proved for populations before the collision with pull and push. False of the code: with the default arguments the populations after the collision are used and the result is 1 - omega times the strain rate (C101_from_array); with in-place patterns the flag for populations before the collision gives those after it in opposite directions (C101_pre_inplace_reversed, C101_set_pre_inplace); for c_s^2 other than 1/3 the result is 3 c_s^2 times the strain rate (C101_strain_rate); density and velocity symbols are left undefined (C101_undefined_symbols)."
  },
  {
   "property": "C102",
   "status": "partial",
   "theorems": [
    "Lbm.EdmSubst.C102_edm_partial",
    "Lbm.EdmSubst.C102_momentum",
    "Lbm.EdmSubst.C102_coriolis"
   ],
   "note": "Proved for forces no component of which mentions a later velocity component. False of the code otherwise: substitution with a dictionary is sequential, so the force is evaluated with later components shifted already (C102_momentum for every force, C102_coriolis is a witness)."
  },
  {
   "property": "C103",
   "status": "partial",
   "theorems": [
    "Lbm.C103_boundary",
    "Lbm.C103_run",
    "Lbm.C103_no_slip",
    "Lbm.C103_round_trip",
    "Lbm.C103_predefined",
    "Lbm.C103_package_boundaries",
    "Lbm.C103_additional_data",
    "Lbm.C103_first_use",
    "Lbm.C103_silent",
    "Lbm.C103_flag_argument"
   ],
   "note": "translation of boundary conditions, bounce back, setter and getter proved; reporting is false of the code: boundary conditions of the package are refused with TypeError, additional data with IndexError in 2D and 3D, an unused mapping with AttributeError, and boundary cells outside of the mapping silently overwrite a fluid cell"
  },
  {
   "property": "C104",
   "status": "partial",
   "theorems": [
    "Lbm.C104_from_field",
    "Lbm.C104_with_equilibrium",
    "Lbm.C104_failure",
    "Lbm.C104_default_timestep",
    "Lbm.C104_steady",
    "Lbm.C104_used_iff",
    "Lbm.C104_prescribed_partial",
    "Lbm.C104_prescribed_cells_partial",
    "Lbm.C104_force",
    "Lbm.C104_delta_equilibrium",
    "Lbm.C104_delta_compressible",
    "Lbm.C104_discrete_two_dimensional"
   ],
   "note": "Recorded populations, steady states and the prescribed values for absolute equilibria without force are proved. False of the code: with the default delta equilibrium the density is larger by 1 (C104_delta_equilibrium), compressible delta equilibria raise NameError (C104_delta_compressible), the discrete Maxwellian in two dimensions raises TypeError (C104_discrete_two_dimensional), with a force the velocity is off by F/(2 rho) (C104_force), a density of 0 or only one of the two values is ignored without a report (C104_used_iff)."
  },
  {
   "property": "C105",
   "status": "partial",
   "theorems": [
    "Lbm.Simulation.C105_stream_collide",
    "Lbm.Simulation.C105_collide_stream",
    "Lbm.Simulation.C105_orders",
    "Lbm.Simulation.C105_mass",
    "Lbm.Simulation.C105_getter",
    "Lbm.Simulation.C105_reported",
    "Lbm.Simulation.C105_steady",
    "Lbm.Simulation.C105_method",
    "Lbm.Simulation.C105_inplace_refused",
    "Lbm.Simulation.C105_push_loses_mass",
    "Lbm.Simulation.exists_setUp"
   ],
   "note": "Flow, mass and agreement of the orders are proved. False of the code: with a force the velocity reported by the default order is larger by F/rho than that of the other order in the same flow (C105_reported), because the getter is applied to populations after the collision; the pattern push is accepted and loses populations at periodic sides (C105_push_loses_mass)."
  },
  {
   "property": "C106",
   "status": "partial",
   "theorems": [
    "Lbm.Poiseuille.C106_profile",
    "Lbm.Poiseuille.C106_method",
    "Lbm.Poiseuille.C106_trt",
    "Lbm.Poiseuille.C106_simulation",
    "Lbm.Poiseuille.C106_simulation_default",
    "Lbm.Poiseuille.C106_magic",
    "Lbm.Poiseuille.C106_poiseuille_flow",
    "Lbm.Poiseuille.C106_exists"
   ],
   "note": "The profile is proved for both orders, existence for equilibria of first order with Simple. False of the code: with the default order stream_collide the reported momentum density is larger by the force (C106_simulation_default). Equilibria of all orders are covered (from third order on, in three dimensions, without force or momentum across the flow); the force model He is not (Schiller is Guo)."
  },
  {
   "property": "C107",
   "status": "proved",
   "theorems": [
    "Lbm.Poiseuille.C107_profile",
    "Lbm.Poiseuille.C107_ubb",
    "Lbm.Poiseuille.C107_simulation",
    "Lbm.Poiseuille.C107_simulation_default",
    "Lbm.Poiseuille.C107_couette",
    "Lbm.Poiseuille.C107_exists"
   ],
   "note": "Existence for equilibria of first order, force model Simple and incompressible methods; adapt_velocity_to_force is not covered."
  },
  {
   "property": "C108",
   "status": "proved",
   "theorems": [
    "Lbm.Poiseuille.C108_profile",
    "Lbm.Poiseuille.C108_input",
    "Lbm.Poiseuille.C108_input_both",
    "Lbm.Poiseuille.C108_velocity_input",
    "Lbm.Poiseuille.C108_trt",
    "Lbm.Poiseuille.C108_dirichlet",
    "Lbm.Poiseuille.C108_simulation",
    "Lbm.Poiseuille.C108_simulation_default",
    "Lbm.Poiseuille.C108_exists"
   ],
   "note": "existence is shown for fluid at rest; with velocity_field the boundary prescribes C(1+9u^2) instead of C (second part of C108_dirichlet, see disagreements)"
  },
  {
   "property": "C109",
   "status": "proved",
   "theorems": [
    "Lbm.Decay.C109_energy",
    "Lbm.Decay.C109_bounded",
    "Lbm.Decay.C109_steady",
    "Lbm.Decay.C109_converges",
    "Lbm.Decay.C109_mean",
    "Lbm.Decay.C109_rules",
    "Lbm.Decay.C109_trt",
    "Lbm.Decay.C109_trt_mean",
    "Lbm.Decay.C109_plates",
    "Lbm.Decay.C109_growth",
    "Lbm.Decay.C109_d3q7"
   ],
   "note": "populations are real numbers; stencils with positive weights (D3Q7 is shown not to converge, see disagreements)"
  },
  {
   "property": "C11",
   "status": "proved",
   "theorems": [
    "Lbm.C11_source_is_torus_neighbour",
    "Lbm.C11_rejects_exactly",
    "Lbm.C11_each_slot_read_once",
    "Lbm.C11_periodic_accessor_run"
   ],
   "note": ""
  },
  {
   "property": "C110",
   "status": "proved",
   "theorems": [
    "Lbm.Stokes.C110_alternating",
    "Lbm.Stokes.C110_never_steady",
    "Lbm.Stokes.C110_contraction",
    "Lbm.Stokes.C110_bounded",
    "Lbm.Stokes.C110_lattice",
    "Lbm.Stokes.C110_trt",
    "Lbm.Stokes.C110_ubb",
    "Lbm.Stokes.C110_momentum",
    "Lbm.Stokes.C110_methods",
    "Lbm.Stokes.C110_poiseuille"
   ],
   "note": "populations are real numbers; the alternating momentum is a limitation of the scheme, see disagreements"
  },
  {
   "property": "C111",
   "status": "partial",
   "theorems": [
    "Lbm.IncompressibleMoments.C111_linear",
    "Lbm.IncompressibleMoments.C111_value",
    "Lbm.IncompressibleMoments.C111_idempotent",
    "Lbm.IncompressibleMoments.C111_not_idempotent",
    "Lbm.IncompressibleMoments.C111_discrete",
    "Lbm.IncompressibleMoments.C111_continuous",
    "Lbm.IncompressibleMoments.C111_hydrodynamic_partial",
    "Lbm.IncompressibleMoments.C111_hydrodynamic_fails"
   ],
   "note": "All but the last part is proved. For compressible=False the third moments of hydrodynamic_moment_values exceed those of the incompressible equilibrium by the factor rho (p = rho c_s^2 hides the density); proved with a witness. Exponents of rho below zero (order four and higher with c_s**2 = p/rho) are not modelled."
  },
  {
   "property": "C112",
   "status": "partial",
   "theorems": [
    "Lbm.TakeMoments.C112_product",
    "Lbm.TakeMoments.C112_errors",
    "Lbm.TakeMoments.C112_moments",
    "Lbm.TakeMoments.C112_atom_rejected",
    "Lbm.TakeMoments.C112_order_unknown",
    "Lbm.TakeMoments.C112_other_derivative"
   ],
   "note": "Proved for products with known populations and derivatives of populations only, which the expansion before leaves. False of the code: an equation that is a single population or derivative, or zero, fails an assertion; the derivative of something else in front of a population is returned as derivative of the moment. The expansion of derivatives (pystencils) is not modelled."
  },
  {
   "property": "C113",
   "status": "partial",
   "theorems": [
    "Lbm.NavierStokesMatch.C113_result",
    "Lbm.NavierStokesMatch.C113_navier_stokes",
    "Lbm.NavierStokesMatch.C113_compressible",
    "Lbm.NavierStokesMatch.C113_pressure_stress",
    "Lbm.NavierStokesMatch.C113_inviscid_rejected",
    "Lbm.NavierStokesMatch.C113_time_derivative",
    "Lbm.NavierStokesMatch.C113_coefficients_wrong"
   ],
   "note": "Proved for momentum equations whose difference from convection is a sum of first derivatives with constant coefficients. False of the code without that: with u_0 * Diff(rho, 0) + Diff(rho, 0) it returns a pressure that does not satisfy the equation (witness). diff_simplify (pystencils) is not modelled; the reference equations are given expanded."
  },
  {
   "property": "C114",
   "status": "proved",
   "theorems": [
    "Lbm.ZeroConditions.C114_value",
    "Lbm.ZeroConditions.C114_single",
    "Lbm.ZeroConditions.C114_threshold",
    "Lbm.ZeroConditions.C114_threshold_ignored",
    "Lbm.ZeroConditions.C114_threshold_changes"
   ],
   "note": "The arithmetic normal form of sympy is not modelled (values only). The threshold is ignored for symbols known to be not negative, see disagreements."
  },
  {
   "property": "C115",
   "status": "proved",
   "theorems": [
    "Lbm.ChainSolve.C115_chain",
    "Lbm.ChainSolve.C115_triangular",
    "Lbm.ChainSolve.C115_unique",
    "Lbm.ChainSolve.C115_two_unknowns",
    "Lbm.ChainSolve.C115_order",
    "Lbm.ChainSolve.C115_moments",
    "Lbm.ChainSolve.C115_moments_solve"
   ],
   "note": "Equations affine in the time derivatives, which those of the package are; unknowns inside of further derivatives are not modelled. The joint solution for the moments is sp.solve, modelled by the unique solution of the equations."
  },
  {
   "property": "C116",
   "status": "proved",
   "theorems": [
    "Lbm.CopyKernel.C116_copy",
    "Lbm.CopyKernel.C116_same",
    "Lbm.CopyKernel.C116_outgoing",
    "Lbm.CopyKernel.C116_incoming",
    "Lbm.CopyKernel.C116_periodic",
    "Lbm.CopyKernel.C116_border"
   ],
   "note": "Arrays are functions on cells of an abelian group (periodic domains and the infinite lattice); ghost layers are cells that are not in the list."
  },
  {
   "property": "C117",
   "status": "proved",
   "theorems": [
    "Lbm.DomainSize.C117_square",
    "Lbm.DomainSize.C117_cube",
    "Lbm.DomainSize.C117_ghost_layers",
    "Lbm.DomainSize.C117_docstring",
    "Lbm.DomainSize.C117_shown_too_large",
    "Lbm.DomainSize.C117_shown_safe",
    "Lbm.DomainSize.C117_overview",
    "Lbm.DomainSize.C117_overview_error",
    "Lbm.DomainSize.C117_units",
    "Lbm.DomainSize.C117_rejected"
   ],
   "note": "Real numbers in place of floats; python's float() of a string is a parameter; white space and lower case are those of ASCII. The queries of the machine (cpuinfo, psutil, cupy) are not modelled."
  },
  {
   "property": "C118",
   "status": "proved",
   "theorems": [
    "Lbm.MomentShift.C118_pipeline",
    "Lbm.MomentShift.C118_commute",
    "Lbm.MomentShift.C118_reverse",
    "Lbm.MomentShift.C118_lost"
   ],
   "note": "Right hand sides are their values as functions of the symbols. The pipeline is stated for compressible methods and a shift that is not reversed. The functions are not called in the package."
  },
  {
   "property": "C119",
   "status": "proved",
   "theorems": [
    "Lbm.BulkInterface.C119_bulk_no_gradient",
    "Lbm.BulkInterface.C119_bulk",
    "Lbm.BulkInterface.C119_sum",
    "Lbm.BulkInterface.C119_interface_uniform",
    "Lbm.BulkInterface.C119_unique",
    "Lbm.BulkInterface.C119_quadratic",
    "Lbm.BulkInterface.C119_idempotent",
    "Lbm.BulkInterface.C119_quotient"
   ],
   "note": "expand() is left out, it does not change values. The order of sympy's substitution (outermost gradients first) is part of the model."
  },
  {
   "property": "C12",
   "status": "partial",
   "theorems": [
    "Lbm.C12_periodicity_partial",
    "Lbm.C12_periodic_run_is_torus",
    "Lbm.C12_two_ghost_layers_wrong"
   ],
   "note": "Proved for one ghost layer (the only case the library uses itself); false for two ghost layers, witness C12_two_ghost_layers_wrong."
  },
  {
   "property": "C120",
   "status": "proved",
   "theorems": [
    "Lbm.Concentrations.C120_outside",
    "Lbm.Concentrations.C120_n_phase",
    "Lbm.Concentrations.C120_single",
    "Lbm.Concentrations.C120_single_last",
    "Lbm.Concentrations.C120_three_phase",
    "Lbm.Concentrations.C120_no_rho_rejects",
    "Lbm.Concentrations.C120_no_rho_read",
    "Lbm.Concentrations.C120_plain",
    "Lbm.Concentrations.C120_twice"
   ],
   "note": "One list of concentrations for the slice; at least two order parameters; array shapes of numpy and the gathering of blocks are not modelled, errors leave no state. False of the code as a general claim: concentrations cannot be set in the three phase model without density (C120_no_rho_rejects)."
  },
  {
   "property": "C121",
   "status": "proved",
   "theorems": [
    "Lbm.InitialProfiles.C121_sharp",
    "Lbm.InitialProfiles.C121_complement",
    "Lbm.InitialProfiles.C121_last_ignored",
    "Lbm.InitialProfiles.C121_sharp_count",
    "Lbm.InitialProfiles.C121_smooth_range",
    "Lbm.InitialProfiles.C121_smooth_others",
    "Lbm.InitialProfiles.C121_smooth_exchanged",
    "Lbm.InitialProfiles.C121_symmetric",
    "Lbm.InitialProfiles.C121_default_centred",
    "Lbm.InitialProfiles.C121_single_interface",
    "Lbm.InitialProfiles.C121_half_cell"
   ],
   "note": "Real values on a row of cells along the first axis. Setting the populations afterwards is not part of the model."
  },
  {
   "property": "C122",
   "status": "proved",
   "theorems": [
    "Lbm.DiscreteEntropy.C122_gibbs",
    "Lbm.DiscreteEntropy.C122_maximum",
    "Lbm.DiscreteEntropy.C122_approx_square",
    "Lbm.DiscreteEntropy.C122_lower",
    "Lbm.DiscreteEntropy.C122_second_order",
    "Lbm.DiscreteEntropy.C122_factor_two",
    "Lbm.DiscreteEntropy.C122_surplus"
   ],
   "note": "Real values instead of symbols."
  },
  {
   "property": "C123",
   "status": "proved",
   "theorems": [
    "Lbm.CeSubst.C123_insert_sound",
    "Lbm.CeSubst.C123_insert_complete",
    "Lbm.CeSubst.C123_insert_keeps",
    "Lbm.CeSubst.C123_operator",
    "Lbm.CeSubst.C123_agree",
    "Lbm.CeSubst.C123_substitute_sound",
    "Lbm.CeSubst.C123_power",
    "Lbm.CeSubst.C123_exponent_lost",
    "Lbm.CeSubst.C123_not_sound"
   ],
   "note": "The values of the moments are parameters, sp.expand is assumed to be done, powers are integers. False of the code as a general claim for substitute: powers of sums lose their exponent (C123_not_sound)."
  },
  {
   "property": "C124",
   "status": "proved",
   "theorems": [
    "Lbm.HigherOrder.C124_conditions",
    "Lbm.HigherOrder.C124_sound",
    "Lbm.HigherOrder.C124_first_removes",
    "Lbm.HigherOrder.C124_iterations"
   ],
   "note": "Soundness for expressions in which only leaves are raised to powers (as C123). Solving the equations for the moments is not part of the model."
  },
  {
   "property": "C125",
   "status": "proved",
   "theorems": [
    "Lbm.DerivExpansion.C125_expand_sound",
    "Lbm.DerivExpansion.C125_expand_complete",
    "Lbm.DerivExpansion.C125_recombine_sound",
    "Lbm.DerivExpansion.C125_recombine_complete",
    "Lbm.DerivExpansion.C125_roundtrip",
    "Lbm.DerivExpansion.C125_ce_recombine",
    "Lbm.DerivExpansion.C125_ce_complete",
    "Lbm.DerivExpansion.C125_superscript_ignored",
    "Lbm.DerivExpansion.C125_superscript_not_sound",
    "Lbm.DerivExpansion.C125_empty"
   ],
   "note": "Arguments of derivatives are names (no derivatives of derivatives); simultaneous replacement. False of the code for expressions with superscripts (C125_superscript_not_sound)."
  },
  {
   "property": "C126",
   "status": "proved",
   "theorems": [
    "Lbm.EqualityTable.C126_cells",
    "Lbm.EqualityTable.C126_positions",
    "Lbm.EqualityTable.C126_counts",
    "Lbm.EqualityTable.C126_total",
    "Lbm.EqualityTable.C126_not_symmetric"
   ],
   "note": "The comparison of moments is a parameter; texts and styles of the cells are not modelled. False of the code without symmetry of the comparison (C126_not_symmetric)."
  },
  {
   "property": "C127",
   "status": "proved",
   "theorems": [
    "Lbm.MaskedSlice.C127_two_axes",
    "Lbm.MaskedSlice.C127_three_axes",
    "Lbm.MaskedSlice.C127_scalar",
    "Lbm.MaskedSlice.C127_line_fails",
    "Lbm.MaskedSlice.C127_rejects",
    "Lbm.MaskedSlice.C127_density"
   ],
   "note": "np.repeat and the reshaping of masks by np.ma are modelled after their documentation; the gathered arrays are given, squeeze is left out."
  },
  {
   "property": "C128",
   "status": "proved",
   "theorems": [
    "Lbm.ImageMask.C128_exact",
    "Lbm.ImageMask.C128_fits",
    "Lbm.ImageMask.C128_centred",
    "Lbm.ImageMask.C128_callback",
    "Lbm.ImageMask.C128_blocks",
    "Lbm.ImageMask.C128_outside",
    "Lbm.ImageMask.C128_plane_order"
   ],
   "note": "Reading, turning, zooming and thresholding the image are left out; exact numbers instead of floats for the zoom factors; slice_intersection, shift_slice and the size after zoom by their documentation."
  },
  {
   "property": "C129",
   "status": "proved",
   "theorems": [
    "Lbm.ScalingWidget.C129_settles",
    "Lbm.ScalingWidget.C129_switch",
    "Lbm.ScalingWidget.C129_inputs",
    "Lbm.ScalingWidget.C129_runs",
    "Lbm.ScalingWidget.C129_repaired",
    "Lbm.ScalingWidget.C129_disabled",
    "Lbm.ScalingWidget.C129_velocity_stale",
    "Lbm.ScalingWidget.C129_scaling"
   ],
   "note": "Rational numbers instead of floats; a changed field notifies its listeners at once (traitlets); a disabled field takes no input; the Reynolds number and the layout are left out."
  },
  {
   "property": "C13",
   "status": "proved",
   "theorems": [
    "Lbm.C13_predefined_sets",
    "Lbm.C13_orderings_agree",
    "Lbm.C13_predefined_valid",
    "Lbm.C13_inverse_index_involution",
    "Lbm.C13_index_finds_members"
   ],
   "note": ""
  },
  {
   "property": "C130",
   "status": "proved",
   "theorems": [
    "Lbm.DropSetup.C130_lens",
    "Lbm.DropSetup.C130_two_drops",
    "Lbm.DropSetup.C130_straddles",
    "Lbm.DropSetup.C130_lens_column",
    "Lbm.DropSetup.C130_centred",
    "Lbm.DropSetup.C130_widths"
   ],
   "note": "Fractions of slices are exact instead of floats (int(fraction * size) of pystencils); constructors and the translation into order parameters are left out."
  },
  {
   "property": "C131",
   "status": "proved",
   "theorems": [
    "Lbm.InsertSub.C131_values",
    "Lbm.InsertSub.C131_none_left",
    "Lbm.InsertSub.C131_pure",
    "Lbm.InsertSub.C131_square",
    "Lbm.InsertSub.C131_simplifications",
    "Lbm.InsertSub.C131_half_force",
    "Lbm.InsertSub.C131_skip_ignored"
   ],
   "note": "insert_subexpressions of pystencils is modelled after its documentation; expressions have numbers, symbols, sums, products and natural powers and are not rewritten by sympy after a substitution."
  },
  {
   "property": "C14",
   "status": "partial",
   "theorems": [
    "Lbm.C14_accepts_exactly",
    "Lbm.C14_error_kinds",
    "Lbm.C14_by_name",
    "Lbm.C14_accepted_valid",
    "Lbm.C14_eq_is_set_equality",
    "Lbm.C14_eq_implies_hash_eq_partial",
    "Lbm.C14_eq_hash_contract_violated"
   ],
   "note": "Construction part proved. The eq/hash contract is false for stencils given as tuples (witness C14_eq_hash_contract_violated), proved for predefined ones."
  },
  {
   "property": "C15",
   "status": "proved",
   "theorems": [
    "Lbm.C15_moments_of_order",
    "Lbm.C15_one_representative_per_class",
    "Lbm.C15_moments_up_to_order",
    "Lbm.C15_moments_up_to_component_order",
    "Lbm.C15_permutations",
    "Lbm.C15_empty_tuple",
    "Lbm.C15_extend"
   ],
   "note": "C15_empty_tuple records the one exception, the empty tuple."
  },
  {
   "property": "C16",
   "status": "partial",
   "theorems": [
    "Lbm.C16_representatives_partial",
    "Lbm.C16_at_most_one",
    "Lbm.C16_class_lost"
   ],
   "note": "Proved for collections closed under permutation; false in general, for every iteration order of sets (C16_class_lost)."
  },
  {
   "property": "C17",
   "status": "proved",
   "theorems": [
    "Lbm.C17_discrete_moment",
    "Lbm.C17_non_aliased",
    "Lbm.C17_reduced",
    "Lbm.C17_needs_first_neighbours",
    "Lbm.C17_aliases",
    "Lbm.C17_polynomials"
   ],
   "note": ""
  },
  {
   "property": "C18",
   "status": "partial",
   "theorems": [
    "Lbm.C18_result",
    "Lbm.C18_error_iff",
    "Lbm.C18_independent",
    "Lbm.C18_last_vector_unchecked"
   ],
   "note": "Orthogonality, span and the exact error condition are proved. Detection of dependent input is false of the code for the last vector (witness C18_last_vector_unchecked)."
  },
  {
   "property": "C19",
   "status": "proved",
   "theorems": [
    "Lbm.MomentMethod.C19_defined_iff",
    "Lbm.MomentMethod.C19_moments",
    "Lbm.MomentMethod.C19_conservation",
    "Lbm.MomentMethod.C19_equilibrium",
    "Lbm.MomentMethod.C19_single_rate",
    "Lbm.MomentMethod.C19_basis_independence",
    "Lbm.MomentMethod.C19_space_independence",
    "Lbm.MomentMethod.C19_collision_matrix",
    "Lbm.MomentMethod.C19_set_conserved_rate",
    "Lbm.MomentMethod.C19_set_zeroth_rate_adds",
    "Lbm.MomentMethod.C19_matched_weights",
    "Lbm.C19_offered_sets_well_formed"
   ],
   "note": ""
  },
  {
   "property": "C20",
   "status": "partial",
   "theorems": [
    "Lbm.C20_weights_isotropic",
    "Lbm.C20_weights_elementary",
    "Lbm.C20_D3Q7_not_fourth_order",
    "Lbm.C20_maxwellian_moments",
    "Lbm.C20_background_is_weights"
   ],
   "note": "Full for every predefined stencil with weights except D3Q7, whose weights are not isotropic to fourth order (C20_D3Q7_not_fourth_order); for D3Q7 the parts not needing fourth order are proved."
  },
  {
   "property": "C21",
   "status": "proved",
   "theorems": [
    "Lbm.C21_setter_moments",
    "Lbm.C21_round_trip",
    "Lbm.C21_predefined"
   ],
   "note": ""
  },
  {
   "property": "C22",
   "status": "proved",
   "theorems": [
    "Lbm.C22_values",
    "Lbm.C22_subexpressions",
    "Lbm.C22_defined",
    "Lbm.C22_predefined",
    "Lbm.C22_no_unit_velocity",
    "Lbm.C22_D2Q9",
    "Lbm.C22_equilibriumInput",
    "Lbm.C22_output_moments",
    "Lbm.C22_output_orders_disagree"
   ],
   "note": "Expressions over distinct population symbols; sympy's subs on sums is modelled on coefficient form. Finding: AttributeError for symmetric sets without a unit velocity on some axis."
  },
  {
   "property": "C23",
   "status": "proved",
   "theorems": [
    "Lbm.ForceInput.C23_simple",
    "Lbm.ForceInput.C23_luo",
    "Lbm.ForceInput.C23_he_terms",
    "Lbm.ForceInput.C23_he_continuous",
    "Lbm.ForceInput.C23_edm",
    "Lbm.ForceInput.C23_edm_second",
    "Lbm.ForceInput.C23_shan_chen_terms",
    "Lbm.ForceInput.C23_spaces_agree",
    "Lbm.ForceInput.C23_no_mass",
    "Lbm.ForceInput.C23_momentum",
    "Lbm.ForceInput.C23_second_moments",
    "Lbm.ForceInput.C23_shan_chen_original",
    "Lbm.C23_collision_general",
    "Lbm.C23_collision_adds_force",
    "Lbm.C23_predefined",
    "Lbm.C23_fraction_field_loses_force",
    "Lbm.ForceExample.C23_he_spaces_differ"
   ],
   "note": "Full for moment-based methods. Findings: force lost with a fraction field; He's SRT branch differs from its moment-space terms."
  },
  {
   "property": "C24",
   "status": "proved",
   "theorems": [
    "Lbm.C24_viscosity_rate",
    "Lbm.C24_rate_viscosity",
    "Lbm.C24_rate_antitone",
    "Lbm.C24_magic_number",
    "Lbm.C24_scaling",
    "Lbm.C24_scaling_composes"
   ],
   "note": "Over every linearly ordered field; division by zero is an exception value."
  },
  {
   "property": "C25",
   "status": "proved",
   "theorems": [
    "Lbm.Scaling.C25_reynolds_current",
    "Lbm.Scaling.C25_scalings_agree",
    "Lbm.Scaling.C25_lattice_reynolds",
    "Lbm.Scaling.C25_chained"
   ],
   "note": "Exact arithmetic in a field of characteristic 0; the Jupyter widget class is not modelled."
  },
  {
   "property": "C26",
   "status": "proved",
   "theorems": [
    "Lbm.C26_welford",
    "Lbm.C26_checks"
   ],
   "note": "Exact arithmetic; the caller counts from 1."
  },
  {
   "property": "C27",
   "status": "proved",
   "theorems": [
    "Lbm.C27_force_balance",
    "Lbm.C27_particle",
    "Lbm.C27_mass",
    "Lbm.C27_unknown_sc",
    "Lbm.C27_defined",
    "Lbm.C27_predefined"
   ],
   "note": "C27_predefined covers methods without a force model on every predefined stencil; the other theorems hold for arbitrary equilibria with equal mass."
  },
  {
   "property": "C28",
   "status": "partial",
   "theorems": [
    "Lbm.C28_smagorinsky_stress",
    "Lbm.C28_smagorinsky",
    "Lbm.C28_smagorinsky_monotone",
    "Lbm.C28_constant",
    "Lbm.C28_qr",
    "Lbm.C28_qr_invariants",
    "Lbm.C28_qr_undefined_at_equilibrium",
    "Lbm.C28_qr_dimension",
    "Lbm.C28_casson_clipped_partial",
    "Lbm.C28_casson_above_yield",
    "Lbm.C28_casson_newtonian",
    "Lbm.C28_casson_undefined",
    "Lbm.C28_extract",
    "Lbm.C28_extract_accepts_any"
   ],
   "note": "Real-number model of the Smagorinsky, QR and Casson rates. Smagorinsky and QR proved in full (QR for non-zero stress). The Casson clipping holds whenever the rate is a number; below the yield stress it is not (C28_casson_undefined), so the claim as stated is false of the code."
  },
  {
   "property": "C29",
   "status": "partial",
   "theorems": [
    "Lbm.C29_bouzidi_reduces_to_no_slip",
    "Lbm.C29_bouzidi_continuous_at_half",
    "Lbm.C29_bouzidi_convex",
    "Lbm.C29_bouzidi_exact_linear",
    "Lbm.C29_bouzidi_exact_linear_far",
    "Lbm.C29_bouzidi_kernel",
    "Lbm.C29_bouzidi_narrow_gap_order_dependent",
    "Lbm.C29_quadratic_consistent",
    "Lbm.C29_quadratic_recovers_pre_collision",
    "Lbm.C29_quadratic_default_is_not_no_slip"
   ],
   "note": "Everything claimed for linear Bouzidi is proved. The fall back of the quadratic rule to no-slip without wall distance is false of the code (C29_quadratic_default_is_not_no_slip)."
  },
  {
   "property": "C30",
   "status": "proved",
   "theorems": [
    "Lbm.C30_ubb_zero_velocity",
    "Lbm.C30_ubb_value",
    "Lbm.C30_ubb_odd",
    "Lbm.C30_ubb_no_net_mass",
    "Lbm.C30_ubb_tangential_wall",
    "Lbm.C30_ubb_momentum",
    "Lbm.C30_ubb_density_zero_ignored",
    "Lbm.C30_ubb_kernel"
   ],
   "note": "C30_ubb_density_zero_ignored records that density=0 is treated as not given."
  },
  {
   "property": "C31",
   "status": "proved",
   "theorems": [
    "Lbm.C31_simple_outflow",
    "Lbm.C31_outflow_history",
    "Lbm.C31_outflow_closed_form",
    "Lbm.C31_outflow_weight"
   ],
   "note": ""
  },
  {
   "property": "C32",
   "status": "partial",
   "theorems": [
    "Lbm.C32_numbering",
    "Lbm.C32_index_array",
    "Lbm.C32_step",
    "Lbm.C32_run",
    "Lbm.C32_both_flags",
    "Lbm.C32_bulk_silent",
    "Lbm.C32_wall_across_border",
    "Lbm.C32_collide_only",
    "Lbm.C32_aos"
   ],
   "note": "Numbering, index list and any number of steps proved for all flag arrays in which fluid cells lie inside the ghost layers and no cell is both fluid and boundary, structure-of-arrays layout, kernel stream_pull_collide / stream_pull_only. False of the code and shown by witnesses: cells with both flags, vectorised lookup of unknown cells, obstacles across a periodic border, kernel_type collide_only, layout AoS."
  },
  {
   "property": "C33",
   "status": "partial",
   "theorems": [
    "Lbm.C33_one_rate",
    "Lbm.C33_all_rates",
    "Lbm.C33_single",
    "Lbm.C33_grouped_partial",
    "Lbm.C33_unbound",
    "Lbm.C33_callable",
    "Lbm.C33_modifier",
    "Lbm.C33_cascaded_count",
    "Lbm.C33_D3Q7_third_rate",
    "Lbm.C33_one_dimension",
    "Lbm.C33_shear_rate",
    "Lbm.C33_shear_rate_is_first",
    "Lbm.C33_bulk_rate",
    "Lbm.C33_order_leading",
    "Lbm.C33_order_partial",
    "Lbm.C33_order_not_degree"
   ],
   "note": "All nestings and list lengths, for any classification of moments. The grouped case is proved except where no shear moment exists and low-order moments are not conserved, where the code raises UnboundLocalError (C33_unbound); an unused rate must be supplied when no group needs one (C33_D3Q7_third_rate); get_order is lexicographic (C33_order_not_degree)."
  },
  {
   "property": "C34",
   "status": "partial",
   "theorems": [
    "Lbm.C34_values_preserved",
    "Lbm.C34_sharing",
    "Lbm.C34_substitute_back",
    "Lbm.C34_name_collision"
   ],
   "note": "Proved when no symbol of the user is named rr_0, rr_1, ...; false otherwise (witness C34_name_collision)."
  },
  {
   "property": "C35",
   "status": "proved",
   "theorems": [
    "Lbm.Chimera.C35_raw",
    "Lbm.Chimera.C35_fast_central",
    "Lbm.Chimera.C35_binomial",
    "Lbm.Chimera.C35_central",
    "Lbm.Chimera.C35_roundtrip",
    "Lbm.Chimera.C35_default_sets",
    "Lbm.Chimera.C35_name_collision",
    "Lbm.Chimera.C35_far_velocities_dropped",
    "Lbm.Chimera.C35_needs_lower_exponents",
    "Lbm.Chimera.C35_tuple_too_long"
   ],
   "note": "Any dimension, stencil with distinct entries in {-1,0,1}, exponents below 10 (names are digit strings), lower monomials included; witnesses show each condition is needed. The default moment sets meet them."
  },
  {
   "property": "C36",
   "status": "proved",
   "theorems": [
    "Lbm.MomentMethod.C36_collision",
    "Lbm.MomentMethod.C36_simulation"
   ],
   "note": ""
  },
  {
   "property": "C37",
   "status": "proved",
   "theorems": [
    "Lbm.SymSplit.C37_values",
    "Lbm.SymSplit.C37_form",
    "Lbm.SymSplit.C37_hints",
    "Lbm.SymSplit.C37_chained",
    "Lbm.SymSplit.C37_input_modified"
   ],
   "note": "Every stencil, expression type with value-preserving constructors, assignments and environment, given that generated symbols are new and that no main assignment reads another one's result (as in the collections lbmpy builds; C37_chained shows the condition is needed). The list of subexpressions of the argument is modified in place (C37_input_modified), without effect on values."
  },
  {
   "property": "C38",
   "status": "proved",
   "theorems": [
    "Lbm.MomentMethod.C38_even_odd_decouple",
    "Lbm.C38_is_even_sound",
    "Lbm.C38_create_trt",
    "Lbm.C38_equal_rates_is_srt"
   ],
   "note": ""
  },
  {
   "property": "C39",
   "status": "proved",
   "theorems": [
    "Lbm.C39_moment_of_cumulants",
    "Lbm.C39_cumulant_of_moments",
    "Lbm.C39_central",
    "Lbm.C39_central_equals_raw",
    "Lbm.C39_generating_function",
    "Lbm.C39_derivatives"
   ],
   "note": "Every dimension and index. Both compositions are the identity, also for the centralised variants (first-order values zeroed); the partition formula agrees with differentiating the logarithm of the Laplace transform of the populations. discrete_cumulant for polynomials (a linear combination of the index case) is not modelled."
  },
  {
   "property": "C40",
   "status": "partial",
   "theorems": [
    "Lbm.C40_calls",
    "Lbm.C40_access",
    "Lbm.C40_both_inplace",
    "Lbm.C40_marker_stuck"
   ],
   "note": "Every list of boundaries and every history of calls in which no kernel raises. After a call that raised, the marker is not reset (C40_marker_stuck), so the claim is false for those histories."
  },
  {
   "property": "C41",
   "status": "proved",
   "theorems": [
    "Lbm.C41_run",
    "Lbm.C41_history",
    "Lbm.C41_split"
   ],
   "note": "Whole state equal (arrays on CPU and GPU, name table, macroscopic arrays, step counter), with TimeLoop.run, swap and argument capture of pystencils as assumed in the model header."
  },
  {
   "property": "C42",
   "status": "proved",
   "theorems": [
    "Lbm.C42_success",
    "Lbm.C42_failure",
    "Lbm.C42_total",
    "Lbm.C42_residuum",
    "Lbm.C42_residuum_last_block"
   ],
   "note": "Any residuum sequence including NaN. C42_residuum_last_block: with several blocks per process the residuum is that of the last block only."
  },
  {
   "property": "C43",
   "status": "proved",
   "theorems": [
    "Lbm.C43_wall_force_is_momentum_loss",
    "Lbm.exists_allLinks"
   ],
   "note": ""
  },
  {
   "property": "C44",
   "status": "proved",
   "theorems": [
    "Lbm.C44_free_slip_channel_invariants",
    "Lbm.C44_mass_and_tangential_momentum"
   ],
   "note": ""
  },
  {
   "property": "C45",
   "status": "partial",
   "theorems": [
    "Lbm.C45_fixed_density_fixpoint",
    "Lbm.C45_dirichlet_at_rest",
    "Lbm.C45_dirichlet_with_velocity_wrong"
   ],
   "note": "False of the code for DiffusionDirichlet with a velocity field: speed of sound 1/3 is used instead of its square (witness C45_dirichlet_with_velocity_wrong)."
  },
  {
   "property": "C46",
   "status": "proved",
   "theorems": [
    "Lbm.C46_exponents_roundtrip",
    "Lbm.C46_indices_roundtrip",
    "Lbm.C46_contained",
    "Lbm.C46_is_even"
   ],
   "note": ""
  },
  {
   "property": "C47",
   "status": "proved",
   "theorems": [
    "Lbm.C47_moment_sets_are_bases",
    "Lbm.C47_available",
    "Lbm.C47_orthogonal",
    "Lbm.C47_groups_as_documented",
    "Lbm.C47_expand"
   ],
   "note": ""
  },
  {
   "property": "C48",
   "status": "partial",
   "theorems": [
    "Lbm.C48_bulk",
    "Lbm.C48_shear",
    "Lbm.C48_mixed_term_is_bulk"
   ],
   "note": "C48_bulk says exactly what is decided; the claim as documented is false for polynomials with mixed second order terms (C48_mixed_term_is_bulk)."
  },
  {
   "property": "C49",
   "status": "proved",
   "theorems": [
    "Lbm.Continuous.C49_generating",
    "Lbm.Continuous.C49_moment",
    "Lbm.Continuous.C49_central_moment",
    "Lbm.Continuous.C49_central_moment_values",
    "Lbm.Continuous.C49_cumulant",
    "Lbm.Continuous.C49_values",
    "Lbm.Continuous.HydroMaxwellian.C49_class_moment",
    "Lbm.Continuous.HydroMaxwellian.C49_class_moment_truncated",
    "Lbm.Continuous.HydroMaxwellian.C49_low_moments_exact",
    "Lbm.Continuous.HydroMaxwellian.C49_class_central_moment",
    "Lbm.Continuous.HydroMaxwellian.C49_class_central_moment_truncated",
    "Lbm.Continuous.HydroMaxwellian.C49_central_moment_independent_of_order",
    "Lbm.Continuous.HydroMaxwellian.C49_conserved",
    "Lbm.Continuous.HydroMaxwellian.C49_deviation",
    "Lbm.Continuous.HydroMaxwellian.C49_class_cumulant"
   ],
   "note": "Values in the reals; sp.integrate is the Lebesgue integral over R^D, so the theorems say what the symbolic integration has to return; that sympy's integrator returns it is trusted. Expressions that depend polynomially on the velocity are truncated as polynomials."
  },
  {
   "property": "C50",
   "status": "proved",
   "theorems": [
    "Lbm.Matching.C50_matching",
    "Lbm.Matching.C50_product_form",
    "Lbm.Matching.C50_full_stencils",
    "Lbm.Matching.C50_third_order"
   ],
   "note": "Real values; the inverse of the moment matrix is the matrix inverse. order=None of generate_equilibrium_by_matching_moments is modelled; its truncation is the subject of C50_full_stencils."
  },
  {
   "property": "C51",
   "status": "proved",
   "theorems": [
    "Lbm.CumulantTransform.C51_forward",
    "Lbm.CumulantTransform.C51_backward",
    "Lbm.CumulantTransform.C51_backward_forward",
    "Lbm.CumulantTransform.C51_forward_backward",
    "Lbm.CumulantTransform.C51_populations",
    "Lbm.CumulantTransform.C51_low_orders",
    "Lbm.CumulantTransform.C51_reads",
    "Lbm.CumulantTransform.C51_constructor",
    "Lbm.CumulantTransform.C51_transform_backward_forward",
    "Lbm.CumulantTransform.C51_transform_forward_backward",
    "Lbm.CumulantTransform.C51_offered_sets"
   ],
   "note": "Real values. Differentiation of the generating functions is modelled symbolically and shown to agree with the sum over set partitions; sympy's collection and simplification of terms are not modelled. The offered sets for D3Q15 are rejected with ValueError."
  },
  {
   "property": "C52",
   "status": "proved",
   "theorems": [
    "Lbm.CentralMoments.C52_shift_matrix",
    "Lbm.CentralMoments.C52_matrix_transform",
    "Lbm.CentralMoments.C52_triangular",
    "Lbm.CentralMoments.C52_reduced_matrix",
    "Lbm.CentralMoments.C52_offered_sets",
    "Lbm.CentralMoments.C52_cascaded_order",
    "Lbm.CentralMoments.Witness.C52_assertion_too_weak"
   ],
   "note": "Expressions in the velocity symbols are modelled as functions of the velocity. The inverse of the symbolic shift matrix is the inverse for every velocity where it exists (always, for the offered sets)."
  },
  {
   "property": "C53",
   "status": "proved",
   "theorems": [
    "Lbm.CentralMoments.Method.C53_defined_iff",
    "Lbm.CentralMoments.Method.C53_moments",
    "Lbm.CentralMoments.Method.C53_zero_rates",
    "Lbm.CentralMoments.Method.C53_equilibrium",
    "Lbm.CentralMoments.Method.C53_single_rate",
    "Lbm.CentralMoments.Method.C53_raw_moments",
    "Lbm.CentralMoments.Method.C53_zero_centred",
    "Lbm.CentralMoments.Method.C53_mass_momentum",
    "Lbm.CentralMoments.Method.C53_conservation",
    "Lbm.CentralMoments.C53_force_space",
    "Lbm.CentralMoments.C53_force_momentum",
    "Lbm.CentralMoments.C53_offered_sets"
   ],
   "note": "The velocity and the equilibrium central moments are arbitrary functions of the populations (C20, C21, C49 are about them). Only the matrix transform is modelled here; C48 covers the chimera transforms. Shan-Chen and He forcing in central moment space are not modelled."
  },
  {
   "property": "C54",
   "status": "proved",
   "theorems": [
    "Lbm.CumulantMethod.C54_order",
    "Lbm.CumulantMethod.C54_regular",
    "Lbm.CumulantMethod.Method.C54_defined_iff",
    "Lbm.CumulantMethod.Method.C54_cumulants",
    "Lbm.CumulantMethod.Method.C54_equilibrium",
    "Lbm.CumulantMethod.Method.C54_zero_rates",
    "Lbm.CumulantMethod.Method.C54_mass_momentum",
    "Lbm.CumulantMethod.Method.C54_force",
    "Lbm.CumulantMethod.Method.C54_conservation",
    "Lbm.CumulantMethod.Method.C54_zero_centred",
    "Lbm.CumulantMethod.Method.C54_force_models",
    "Lbm.CumulantMethod.Method.C54_maxwellian",
    "Lbm.CumulantMethod.C54_maxwellian_low",
    "Lbm.CumulantMethod.C54_offered_sets"
   ],
   "note": "Real values. The transform between populations and central moments is the matrix of the monomials and its inverse (C35, C52 are about the transforms used). Galilean and fourth-order corrections are not part of this property."
  },
  {
   "property": "C55",
   "status": "partial",
   "theorems": [
    "Lbm.Corrections.C55_derivatives",
    "Lbm.Corrections.C55_galilean",
    "Lbm.Corrections.C55_galilean_zero",
    "Lbm.Corrections.C55_fourth_order_monomials",
    "Lbm.Corrections.C55_fourth_order_partial",
    "Lbm.Corrections.C55_fourth_order_not_covariant",
    "Lbm.Corrections.C55_additional_parameters",
    "Lbm.Corrections.C55_limited",
    "Lbm.Corrections.C55_rates_default",
    "Lbm.Corrections.C55_rates_unchecked",
    "Lbm.Corrections.C55_limiters_not_covariant",
    "Lbm.Corrections.C55_galilean_exceptions",
    "Lbm.Corrections.C55_fourth_order_exceptions",
    "Lbm.Corrections.C55_no_correction",
    "Lbm.Corrections.C55_mass_momentum",
    "Lbm.Corrections.C55_defined_iff",
    "Lbm.Corrections.C55_placed",
    "Lbm.Corrections.C55_conservation",
    "Lbm.Corrections.C55_parameters_difference",
    "Lbm.Corrections.C55_place"
   ],
   "note": "Covariance holds for the Galilean correction and is false for the fourth-order correction (C55_fourth_order_not_covariant, C55_limiters_not_covariant); what holds of it is C55_fourth_order_partial. Missing polynomials raise TypeError instead of ValueError. Everything else is proved in full."
  },
  {
   "property": "C56",
   "status": "partial",
   "theorems": [
    "Lbm.Config.C56_make",
    "Lbm.Config.C56_configuration",
    "Lbm.Config.C56_idempotent_iff",
    "Lbm.Config.C56_idempotent",
    "Lbm.Config.C56_accepted_then_refused",
    "Lbm.Config.C56_update_partial",
    "Lbm.Config.C56_force_change_ignored",
    "Lbm.Config.C56_rates_change_ignored",
    "Lbm.Config.C56_update_not_fresh",
    "Lbm.Config.C56_force_model",
    "Lbm.Config.C56_force_synonyms",
    "Lbm.Config.C56_default_force_model",
    "Lbm.Config.C56_psm_force_differs",
    "Lbm.Config.C56_create_method",
    "Lbm.Config.C56_fourth_order_stencil_check",
    "Lbm.Config.C56_stages",
    "Lbm.Config.C56_kernel",
    "Lbm.Config.C56_optimisation"
   ],
   "note": "Replacing parameters is not the same as writing the configuration anew (C56_update_not_fresh: derived parameters are kept), and some accepted configurations are refused on the second construction (C56_accepted_then_refused); C56_update_partial and C56_idempotent_iff say when it is. Acceptance, derived parameters, choice of method, additions and kernel are proved in full."
  },
  {
   "property": "C57",
   "status": "partial",
   "theorems": [
    "Lbm.Wall.C57_newton_fixed_point",
    "Lbm.Wall.C57_log_law_solution",
    "Lbm.Wall.C57_log_law_newton",
    "Lbm.Wall.C57_log_law_default_start",
    "Lbm.Wall.C57_log_law_target_fails",
    "Lbm.Wall.C57_spalding_solution",
    "Lbm.Wall.C57_spalding_newton",
    "Lbm.Wall.C57_stress",
    "Lbm.Wall.C57_rest_undefined",
    "Lbm.Wall.C57_most",
    "Lbm.Wall.C57_init",
    "Lbm.Wall.C57_wall_stress",
    "Lbm.Wall.C57_wall_stress_undefined",
    "Lbm.Wall.C57_weights",
    "Lbm.Wall.C57_stencils",
    "Lbm.Wall.C57_momentum_exchange",
    "Lbm.Wall.C57_wfb_step",
    "Lbm.Wall.C57_mean_velocity_distance",
    "Lbm.Wall.C57_pdf_sample_pull",
    "Lbm.Wall.C57_pdf_sample_push",
    "Lbm.Wall.C57_musker_sublayer",
    "Lbm.Wall.C57_musker_solution",
    "Lbm.Wall.C57_musker_newton",
    "Lbm.Wall.C57_musker_default_start"
   ],
   "note": "Real values. Existence, uniqueness and convergence are proved for all three implicit laws from starts at or below the solution (Musker's law: for Reynolds numbers u*y/nu of at least 1e-6, and from the default start up to 1e10); from above it can fail (C57_log_law_target_fails). At rest nothing is defined (C57_rest_undefined, C57_wall_stress_undefined). The sampled velocity does not belong to the distance that is used (C57_mean_velocity_distance, C57_pdf_sample_pull), and in the push pattern the sampled cell refers to arrays that are not generated (C57_pdf_sample_push)."
  },
  {
   "property": "C58",
   "status": "partial",
   "theorems": [
    "Lbm.Entropic.C58_rates",
    "Lbm.Entropic.C58_linear_accepted",
    "Lbm.Entropic.C58_trt_refused",
    "Lbm.Entropic.C58_mixed_refused",
    "Lbm.Entropic.C58_iterative_complete",
    "Lbm.Entropic.C58_iterative_gap",
    "Lbm.Entropic.C58_explicit_maximal",
    "Lbm.Entropic.C58_conservation",
    "Lbm.Entropic.C58_equilibrium_undefined",
    "Lbm.Entropic.C58_forced_not_maximal",
    "Lbm.Entropic.C58_second_derivative",
    "Lbm.Entropic.C58_newton_fixed_point",
    "Lbm.Entropic.C58_iterative_maximal",
    "Lbm.Entropic.C58_procedures_agree",
    "Lbm.Entropic.C58_iterative_degenerate",
    "Lbm.Entropic.C58_explicit_gap"
   ],
   "note": "Proved for every rule that is linear in the two rates, with positive equilibrium and a free part different from zero: the rate of either procedure is the only maximiser of the approximated entropy, the two procedures agree, and conserved quantities do not change. For rules of higher order in the free rate: the iteration rests exactly at the stationary points; its convergence is not proved. The claim is false as stated at equilibrium (0/0), for forces added to the populations, for TRT rates of which the free one is the odd one, and for rules that skip a power of the free rate: witnesses proved. The entropy itself (with logarithm) is not treated, as in the code, which maximises its approximation."
  },
  {
   "property": "C59",
   "status": "partial",
   "theorems": [
    "Lbm.Fluctuating.C59_accepted",
    "Lbm.Fluctuating.C59_amplitudes_refused",
    "Lbm.Fluctuating.C59_random_numbers",
    "Lbm.Fluctuating.C59_moments",
    "Lbm.Fluctuating.C59_defined",
    "Lbm.Fluctuating.C59_total",
    "Lbm.Fluctuating.C59_norms",
    "Lbm.Fluctuating.C59_uniform",
    "Lbm.Fluctuating.C59_stationary",
    "Lbm.Fluctuating.C59_linear_equilibrium",
    "Lbm.Fluctuating.C59_linear_rule",
    "Lbm.Fluctuating.C59_stationary_realised",
    "Lbm.Fluctuating.C59_symbol_accepted",
    "Lbm.Fluctuating.C59_conserved_moments"
   ],
   "note": "Proved for all weighted-orthogonal methods, all rates, temperatures and cells, for the linear equilibrium (the theory the amplitudes come from); with the density of the cell in the amplitudes. Not proved for the quadratic equilibrium, for which the balance holds only approximately. False as stated: amplitudes without a temperature are refused (proved). Quality and independence of the counter-based generator are hypotheses."
  },
  {
   "property": "C60",
   "status": "partial",
   "theorems": [
    "Lbm.AllenCahn.C60_planar_chemical_potential",
    "Lbm.AllenCahn.C60_chemical_potential_energy",
    "Lbm.AllenCahn.C60_surface_tension",
    "Lbm.AllenCahn.C60_tracking_balance",
    "Lbm.AllenCahn.C60_tracking_levels_partial",
    "Lbm.AllenCahn.C60_normal",
    "Lbm.AllenCahn.C60_bulk",
    "Lbm.AllenCahn.C60_refused",
    "Lbm.AllenCahn.C60_equal_densities",
    "Lbm.AllenCahn.C60_pressure",
    "Lbm.AllenCahn.C60_thermocapillary",
    "Lbm.AllenCahn.C60_marangoni",
    "Lbm.AllenCahn.C60_rates",
    "Lbm.AllenCahn.C60_viscous_force_partial",
    "Lbm.AllenCahn.C60_viscous_force_wrong",
    "Lbm.AllenCahn.C60_sub_iterations",
    "Lbm.AllenCahn.C60_sub_iterations_fixed",
    "Lbm.AllenCahn.C60_initial_velocity_partial",
    "Lbm.AllenCahn.C60_viscous_interpolated"
   ],
   "note": "Proved for all parameters for the exact Laplacian and gradient (finite differences come out of pystencils and are arguments of the model). False of the code: the viscous force is the relaxation time times the viscous stress against the density gradient (proved, with witness); bulk values other than 0 and 1 only shift the middle of the interface; the initial velocity is met only where the phase field is one or the force zero."
  },
  {
   "property": "C61",
   "status": "proved",
   "theorems": [
    "Lbm.AllenCahn.C61_wetting",
    "Lbm.AllenCahn.C61_bounded",
    "Lbm.AllenCahn.C61_bulk",
    "Lbm.AllenCahn.C61_symmetry",
    "Lbm.AllenCahn.C61_equilibrium",
    "Lbm.AllenCahn.C61_refused",
    "Lbm.AllenCahn.C61_narrow_interface"
   ],
   "note": "Proved for all angles, widths, links and values; the limit on the width is necessary (C61_narrow_interface)."
  },
  {
   "property": "C62",
   "status": "partial",
   "theorems": [
    "Lbm.AllenCahn.C62_rti",
    "Lbm.AllenCahn.C62_rti_total",
    "Lbm.AllenCahn.C62_rti_atwood_partial",
    "Lbm.AllenCahn.C62_rising_bubble",
    "Lbm.AllenCahn.C62_rising_bubble_total",
    "Lbm.AllenCahn.C62_taylor_bubble_partial",
    "Lbm.AllenCahn.C62_droplet",
    "Lbm.AllenCahn.C62_droplet_dropped_partial"
   ],
   "note": "Proved for all arguments except: the Atwood number is that of the densities only for a matching density ratio; the density ratio of the Taylor bubble is right only for heavy density one; droplet migration drops interface width and reference surface tension, so Peclet and capillary number are right only for width 5 and 0.005 (the default width is 4)."
  },
  {
   "property": "C63",
   "status": "partial",
   "theorems": [
    "Lbm.PhaseField.C63_phase_symmetry",
    "Lbm.PhaseField.C63_chemical_potential",
    "Lbm.PhaseField.C63_equilibrium",
    "Lbm.PhaseField.C63_surface_tension",
    "Lbm.PhaseField.C63_refused",
    "Lbm.PhaseField.C63_triple_point",
    "Lbm.PhaseField.C63_correction",
    "Lbm.PhaseField.C63_correction_sign",
    "Lbm.PhaseField.C63_correction_odd_wrong",
    "Lbm.PhaseField.C63_three_phases_transformation",
    "Lbm.PhaseField.C63_three_phases_surface_tension",
    "Lbm.PhaseField.C63_penalty",
    "Lbm.PhaseField.C63_default_order_parameters",
    "Lbm.PhaseField.C63_default_order_parameters_wrong"
   ],
   "note": "Proved for all numbers of phases, tensions, widths and positions. False of the code: without a list of order parameters the potential of one of them is missing; odd powers of the correction function reward negative parts; the last phase may be given a tension with itself (it is not looked at)."
  },
  {
   "property": "C64",
   "status": "partial",
   "theorems": [
    "Lbm.PhaseField.C64_gamma",
    "Lbm.PhaseField.C64_gamma_refused",
    "Lbm.PhaseField.C64_divergence",
    "Lbm.PhaseField.C64_interface_new",
    "Lbm.PhaseField.C64_symmetric",
    "Lbm.PhaseField.C64_pressure_sqrt",
    "Lbm.PhaseField.C64_pressure_sqrt_wrong",
    "Lbm.PhaseField.C64_linearization"
   ],
   "note": "Proved for arbitrary commuting derivations on a commutative algebra. False of the code: the square root form takes the root of the absolute value, so it is right only where the bulk pressure is at most the ideal one."
  },
  {
   "property": "C65",
   "status": "partial",
   "theorems": [
    "Lbm.Eos.C65_vdw_equation",
    "Lbm.Eos.C65_vdw_critical",
    "Lbm.Eos.C65_vdw_inflection",
    "Lbm.Eos.C65_cs_critical_partial",
    "Lbm.Eos.C65_cs_critical_wrong",
    "Lbm.Eos.C65_eos_of_free_energy",
    "Lbm.Eos.C65_free_energy_of_eos",
    "Lbm.Eos.C65_maxwell",
    "Lbm.Eos.C65_maxwell_step",
    "Lbm.Eos.C65_maxwell_terminates_partial",
    "Lbm.Eos.C65_maxwell_zero_tolerance_wrong",
    "Lbm.Eos.C65_maxwell_near_critical_wrong"
   ],
   "note": "Van der Waals and the transformations are proved. The Carnahan-Starling constant 0.3773 is below the true one, so the isotherm at the returned temperature is not monotone (proved). The Maxwell construction raises for tolerance zero and near the critical temperature (witnesses); termination is proved for a deviation that depends on the shift in a Lipschitz way with a positive slope."
  },
  {
   "property": "C66",
   "status": "partial",
   "theorems": [
    "Lbm.CahnHilliardLb.C66_moments",
    "Lbm.CahnHilliardLb.C66_d3q7_wrong",
    "Lbm.CahnHilliardLb.C66_no_weights",
    "Lbm.CahnHilliardLb.C66_collision",
    "Lbm.CahnHilliardLb.C66_expression_rate_wrong",
    "Lbm.CahnHilliardLb.C66_conservation",
    "Lbm.CahnHilliardLb.C66_mobility"
   ],
   "note": "False of the code: a rate that is an expression (1/tau, a fraction) is taken for a dictionary and raises a TypeError (C66_expression_rate_wrong); on D3Q7 the second moment lacks the mixed velocity products (C66_d3q7_wrong). Everything else is proved for all inputs."
  },
  {
   "property": "C67",
   "status": "proved",
   "theorems": [
    "Lbm.Boyer.C67_diffusion_unique",
    "Lbm.Boyer.C67_diffusion",
    "Lbm.Boyer.C67_diffusion_defined",
    "Lbm.Boyer.C67_gamma_sum",
    "Lbm.Boyer.C67_sum_preserved",
    "Lbm.Boyer.C67_decoupled",
    "Lbm.Boyer.C67_psi",
    "Lbm.Boyer.C67_psi_refused",
    "Lbm.Boyer.C67_psi_absent",
    "Lbm.Boyer.C67_psi_total",
    "Lbm.Boyer.C67_equal_independent",
    "Lbm.Boyer.C67_equal_pair",
    "Lbm.Boyer.C67_equal_three",
    "Lbm.Boyer.C67_h_derivative",
    "Lbm.Boyer.C67_correction_absent",
    "Lbm.Boyer.C67_stabilization_three",
    "Lbm.Boyer.C67_ab",
    "Lbm.Boyer.C67_same_as_n_phases",
    "Lbm.Boyer.C67_surface_tension"
   ],
   "note": "The coefficients of the correction and stabilisation terms are arguments in these theorems; the functions computing them and the vanishing of the potential of an absent phase where three phases meet are the subject of C83."
  },
  {
   "property": "C68",
   "status": "partial",
   "theorems": [
    "Lbm.ChapmanEnskog.C68_taylor_exact",
    "Lbm.ChapmanEnskog.C68_taylor_shifted",
    "Lbm.ChapmanEnskog.C68_taylor_second_order",
    "Lbm.ChapmanEnskog.C68_ansatz_sum",
    "Lbm.ChapmanEnskog.C68_first_order",
    "Lbm.ChapmanEnskog.C68_second_order",
    "Lbm.ChapmanEnskog.C68_post_collision",
    "Lbm.ChapmanEnskog.C68_moment_relaxes",
    "Lbm.ChapmanEnskog.C68_take_moments",
    "Lbm.ChapmanEnskog.C68_conservation",
    "Lbm.ChapmanEnskog.C68_navier_stokes",
    "Lbm.ChapmanEnskog.C68_navier_stokes_incompressible",
    "Lbm.ChapmanEnskog.C68_two_rates",
    "Lbm.ChapmanEnskog.C68_single_rate",
    "Lbm.ChapmanEnskog.C68_dynamic_viscosity",
    "Lbm.ChapmanEnskog.C68_kinematic_viscosity",
    "Lbm.ChapmanEnskog.C68_bulk_viscosity_value",
    "Lbm.ChapmanEnskog.C68_bulk_viscosity_wrong",
    "Lbm.ChapmanEnskog.C68_conditions",
    "Lbm.ChapmanEnskog.C68_newtonian_conditions",
    "Lbm.ChapmanEnskog.C68_conditions_incomplete",
    "Lbm.ChapmanEnskog.C68_sigma_value",
    "Lbm.ChapmanEnskog.C68_sigma_newtonian",
    "Lbm.ChapmanEnskog.C68_viscosity_of_method",
    "Lbm.ChapmanEnskog.C68_method_conditions",
    "Lbm.ChapmanEnskog.C68_method_bulk",
    "Lbm.ChapmanEnskog.C68_rate_from_viscosity",
    "Lbm.ChapmanEnskog.C68_single_product",
    "Lbm.ChapmanEnskog.C68_no_shear",
    "Lbm.ChapmanEnskog.C68_two_viscosities",
    "Lbm.ChapmanEnskog.C68_conditions_miss_diagonal",
    "Lbm.ChapmanEnskog.C68_error_terms"
   ],
   "note": "The derivation and the shear viscosity are proved for all methods. False of the code: get_bulk_viscosity has the wrong sign of the trace part (C68_bulk_viscosity_wrong, C68_method_bulk), does_approximate_navier_stokes accepts stresses that are not Newtonian (C68_conditions_incomplete); what it tests is proved exactly (C68_conditions). The solution of the moment equations by compute_higher_order_moment_subs_dict is C115, match_to_navier_stokes is C113."
  },
  {
   "property": "C69",
   "status": "partial",
   "theorems": [
    "Lbm.SteadyState.C69_hierarchy_solves",
    "Lbm.SteadyState.C69_hierarchy_unique",
    "Lbm.SteadyState.C69_recombined",
    "Lbm.SteadyState.C69_hierarchy_sum",
    "Lbm.SteadyState.C69_exact",
    "Lbm.SteadyState.C69_steady_state",
    "Lbm.SteadyState.C69_conserved",
    "Lbm.SteadyState.C69_generating_function",
    "Lbm.SteadyState.C69_srt_hierarchy",
    "Lbm.SteadyState.C69_coefficients",
    "Lbm.SteadyState.C69_srt_recombined",
    "Lbm.SteadyState.C69_euler",
    "Lbm.SteadyState.C69_first_order",
    "Lbm.SteadyState.C69_post_collision",
    "Lbm.SteadyState.C69_viscosities",
    "Lbm.SteadyState.C69_bulk_viscosity_undetermined"
   ],
   "note": "Everything is proved except the bulk viscosity, which is false of the code: determine_viscosities returns 5/3 of the shear viscosity where the method has 2/3 of it (C69_viscosities, C69_bulk_viscosity_undetermined explains why)."
  },
  {
   "property": "C70",
   "status": "proved",
   "theorems": [
    "Lbm.InKernel.C70_axis",
    "Lbm.InKernel.C70_border",
    "Lbm.InKernel.C70_directions",
    "Lbm.InKernel.C70_every_link_covered",
    "Lbm.InKernel.C70_step",
    "Lbm.InKernel.C70_run",
    "Lbm.InKernel.C70_order_irrelevant",
    "Lbm.InKernel.C70_equals_boundary_sweep",
    "Lbm.InKernel.C70_mass_conserved",
    "Lbm.InKernel.C70_two_array_patterns_race",
    "Lbm.InKernel.C70_long_velocities_missed"
   ],
   "note": "Boundary rules that read other cells or index data are outside the model; that the subexpressions of a boundary rule survive boundary_conditional depends on pystencils and is not claimed."
  },
  {
   "property": "C71",
   "status": "partial",
   "theorems": [
    "Lbm.Simplex.C71_loop_terminates",
    "Lbm.Simplex.C71_in_simplex",
    "Lbm.Simplex.C71_first_cell_is_projection",
    "Lbm.Simplex.C71_every_cell_is_projection_partial",
    "Lbm.Simplex.C71_mask_not_reset",
    "Lbm.Simplex.C71_full_mask",
    "Lbm.Simplex.C71_two_pure_cells",
    "Lbm.Simplex.C71_simplex_points_stay"
   ],
   "note": "Termination, no division by zero and membership in the simplex are proved for all cells. That every cell becomes its nearest point is false of the code, as handled_mask is not reset between cells (C71_mask_not_reset, C71_two_pure_cells); it is proved up to and including the first cell with a zero or negative phase."
  },
  {
   "property": "C72",
   "status": "partial",
   "theorems": [
    "Lbm.OldroydB.C72_source_symmetric",
    "Lbm.OldroydB.C72_source_objective",
    "Lbm.OldroydB.C72_steady_shear",
    "Lbm.OldroydB.C72_force_is_divergence",
    "Lbm.OldroydB.C72_no_net_force",
    "Lbm.OldroydB.C72_reaction",
    "Lbm.OldroydB.C72_faces_isotropic",
    "Lbm.OldroydB.C72_reaction_fails",
    "Lbm.OldroydB.C72_continuity_simultaneous",
    "Lbm.OldroydB.C72_conditional",
    "Lbm.OldroydB.C72_flux_read_back",
    "Lbm.OldroydB.C72_default_flux_is_zero",
    "Lbm.OldroydB.C72_extrapolation_exact",
    "Lbm.OldroydB.C72_extrapolation_orders",
    "Lbm.OldroydB.C72_force_on_boundary_raises",
    "Lbm.OldroydB.C72_flux_divergence"
   ],
   "note": "Everything but the last sentence is proved in full. False of the code: ForceOnBoundary cannot be constructed (C72_force_on_boundary_raises), and its force is the reaction only for nearest-neighbour faces (C72_reaction, C72_reaction_fails). The finite volume discretisations FVM1stOrder and VOF belong to pystencils and are not modelled."
  },
  {
   "property": "C73",
   "status": "partial",
   "theorems": [
    "Lbm.Geometry.C73_round",
    "Lbm.Geometry.C73_two_middles",
    "Lbm.Geometry.C73_profile",
    "Lbm.Geometry.C73_velocity_along_axis",
    "Lbm.Geometry.C73_even_symmetric",
    "Lbm.Geometry.C73_channel_is_poiseuille",
    "Lbm.Geometry.C73_odd_one",
    "Lbm.Geometry.C73_odd_three",
    "Lbm.Geometry.C73_one_row",
    "Lbm.Geometry.C73_one_dimension",
    "Lbm.Geometry.C73_inflow_3d",
    "Lbm.Geometry.C73_inflow_other",
    "Lbm.Geometry.C73_inflow_2d",
    "Lbm.Geometry.C73_inflow_2d_off_centre",
    "Lbm.Geometry.C73_walls_match_velocity",
    "Lbm.Geometry.C73_walls_symmetric",
    "Lbm.Geometry.C73_walls_odd",
    "Lbm.Geometry.C73_sphere",
    "Lbm.Geometry.C73_shear",
    "Lbm.Geometry.C73_shear_small",
    "Lbm.Geometry.C73_cavity",
    "Lbm.Geometry.C73_channel_drive",
    "Lbm.Geometry.C73_channel_errors",
    "Lbm.Geometry.C73_zero_force",
    "Lbm.Geometry.C73_duct_cells",
    "Lbm.Geometry.C73_pipe_cells",
    "Lbm.Geometry.C73_plane_channel",
    "Lbm.Geometry.C73_pressure_difference",
    "Lbm.Geometry.C73_poiseuille",
    "Lbm.Geometry.C73_poiseuille_unique",
    "Lbm.Geometry.C73_vorticity",
    "Lbm.Geometry.C73_vorticity_gradient",
    "Lbm.Geometry.C73_vorticity_small"
   ],
   "note": "Symmetry, agreement of walls and velocity and the Poiseuille profile are proved for even extents; for odd extents the negations are proved (wrong sign in the last row for 4m+1, asymmetry for 4m+3, asymmetric pipe walls). In 2D the inflow profile is centred at the radius: proved equal when radius and half height agree, negative mid-channel velocity proved otherwise. The pressure difference of create_channel is a third of the argument; add_sphere raises TypeError in 3D."
  },
  {
   "property": "C74",
   "status": "partial",
   "theorems": [
    "Lbm.SplitGroups.C74_precomputed",
    "Lbm.SplitGroups.C74_groups",
    "Lbm.SplitGroups.C74_separate",
    "Lbm.SplitGroups.C74_two_arrays",
    "Lbm.SplitGroups.C74_inplace",
    "Lbm.SplitGroups.C74_groups_fit",
    "Lbm.SplitGroups.C74_inplace_needs_condition"
   ],
   "note": "Proved as stated. Partial because lbmpy does not test the condition for patterns with a single array: split=True together with an in-place pattern and a kernel whose equations use all populations computes something else (C74_inplace_needs_condition). The loop transformation itself belongs to pystencils and is modelled by its documented effect."
  },
  {
   "property": "C75",
   "status": "proved",
   "theorems": [
    "Lbm.FastBackward.C75_backward",
    "Lbm.FastBackward.C75_values",
    "Lbm.FastBackward.C75_raw_inverse",
    "Lbm.FastBackward.C75_raw_moments",
    "Lbm.FastBackward.C75_long_links",
    "Lbm.FastBackward.C75_four_dimensions"
   ],
   "note": "Polynomials of degree at most two in each velocity component; simplifications after the splitting and the background shift are not modelled."
  },
  {
   "property": "C76",
   "status": "proved",
   "theorems": [
    "Lbm.QuadraticEq.C76_match_iff",
    "Lbm.QuadraticEq.C76_match_values",
    "Lbm.QuadraticEq.C76_match_error",
    "Lbm.QuadraticEq.C76_round_trip",
    "Lbm.QuadraticEq.C76_maxwellian",
    "Lbm.QuadraticEq.C76_third_order",
    "Lbm.QuadraticEq.C76_speed_clash",
    "Lbm.QuadraticEq.C76_d2v37",
    "Lbm.QuadraticEq.C76_constraints",
    "Lbm.QuadraticEq.C76_pressure",
    "Lbm.QuadraticEq.C76_d2q9",
    "Lbm.QuadraticEq.C76_d2q9_weights",
    "Lbm.QuadraticEq.C76_d2q9_other",
    "Lbm.QuadraticEq.C76_parameters",
    "Lbm.QuadraticEq.C76_values_perm"
   ],
   "note": "Values are compared as numbers; sympy compares expressions structurally. hydrodynamic_moment_values is modelled for compressible=True and orders up to three."
  },
  {
   "property": "C77",
   "status": "proved",
   "theorems": [
    "Lbm.FdStencils.C77_gradient",
    "Lbm.FdStencils.C77_second",
    "Lbm.FdStencils.C77_second_inconsistent",
    "Lbm.FdStencils.C77_laplacian",
    "Lbm.FdStencils.C77_laplacian_not_isotropic",
    "Lbm.FdStencils.C77_mixed",
    "Lbm.FdStencils.C77_supported",
    "Lbm.FdStencils.C77_one_dim",
    "Lbm.FdStencils.C77_error"
   ],
   "note": "The claim that the code's second derivative is consistent is false of the code and its negation is proved (C77_second_inconsistent); likewise isotropy of the Laplacian's error. fd_stencils_standard belongs to pystencils and is written down as what it returns."
  },
  {
   "property": "C78",
   "status": "proved",
   "theorems": [
    "Lbm.PostProcessing.C78_balance",
    "Lbm.PostProcessing.C78_unique",
    "Lbm.PostProcessing.C78_agree",
    "Lbm.PostProcessing.C78_defined",
    "Lbm.PostProcessing.C78_sum"
   ],
   "note": "Exact reals; arccos outside [-1, 1] and division by zero are not a number (none)."
  },
  {
   "property": "C79",
   "status": "proved",
   "theorems": [
    "Lbm.PostProcessing.C79_intersections",
    "Lbm.PostProcessing.C79_touching",
    "Lbm.PostProcessing.C79_touching_vertical",
    "Lbm.PostProcessing.C79_horizontal",
    "Lbm.PostProcessing.C79_lens",
    "Lbm.PostProcessing.C79_lens_swap",
    "Lbm.PostProcessing.C79_lens_labels"
   ],
   "note": "The unrestricted claim (common points for all pairs of circles) is false of the code: C79_touching_vertical and C79_horizontal prove the failures. The documented labelling fails, C79_lens_labels. Contour extraction and circle fitting are outside the model."
  },
  {
   "property": "C80",
   "status": "proved",
   "theorems": [
    "Lbm.PostProcessing.C80_crossing",
    "Lbm.PostProcessing.C80_apart",
    "Lbm.PostProcessing.C80_axis_parallel",
    "Lbm.PostProcessing.C80_ragged",
    "Lbm.PostProcessing.C80_endpoint",
    "Lbm.PostProcessing.C80_wrong_point",
    "Lbm.PostProcessing.C80_closest",
    "Lbm.PostProcessing.C80_triple_points",
    "Lbm.PostProcessing.C80_none",
    "Lbm.PostProcessing.C80_angle",
    "Lbm.PostProcessing.C80_parallel",
    "Lbm.PostProcessing.C80_angles"
   ],
   "note": "The claim for arbitrary segments is false of the code: C80_axis_parallel, C80_ragged, C80_endpoint, C80_wrong_point. Empty case: C80_none. Contour extraction is outside the model."
  },
  {
   "property": "C81",
   "status": "proved",
   "theorems": [
    "Lbm.PsmKernel.C81_two_arrays",
    "Lbm.PsmKernel.C81_single",
    "Lbm.PsmKernel.C81_fraction_zero",
    "Lbm.PsmKernel.C81_in_place",
    "Lbm.PsmKernel.C81_in_place_wrong",
    "Lbm.PsmKernel.C81_stale_forces",
    "Lbm.PsmKernel.C81_left_out"
   ],
   "note": "The equivalence with the unconditional kernel is false for in-place patterns and several particles (C81_in_place, C81_in_place_wrong). The collision operator enters as a function of the optional total fraction; that fraction zero equals no fraction is proved for moment based methods (C81_fraction_zero)."
  },
  {
   "property": "C82",
   "status": "proved",
   "theorems": [
    "Lbm.CopyBoundaries.C82_neumann",
    "Lbm.CopyBoundaries.C82_order",
    "Lbm.CopyBoundaries.C82_thin_wall",
    "Lbm.CopyBoundaries.C82_constant",
    "Lbm.CopyBoundaries.C82_halo"
   ],
   "note": "Without the condition on facing links the claim is false of the code (C82_thin_wall proves the race for every pattern). The sequential kernel is modelled; on parallel hardware the order in C82_thin_wall is undetermined."
  },
  {
   "property": "C83",
   "status": "proved",
   "theorems": [
    "Lbm.Boyer.C83_unique",
    "Lbm.Boyer.C83_no_spreading",
    "Lbm.Boyer.C83_lambda",
    "Lbm.Boyer.C83_theta",
    "Lbm.Boyer.C83_absent",
    "Lbm.Boyer.C83_consistent",
    "Lbm.Boyer.C83_uncorrected",
    "Lbm.Boyer.C83_equal"
   ],
   "note": "The linear systems solved by sympy are modelled as: the unique solution if there is one, the symbol itself otherwise. Where four or more phases meet nothing is claimed (the correction is not designed for it)."
  },
  {
   "property": "C84",
   "status": "partial",
   "theorems": [
    "Lbm.Simplify.C84_factor_rates",
    "Lbm.Simplify.C84_factor_density",
    "Lbm.Simplify.C84_density_velocity",
    "Lbm.Simplify.C84_common",
    "Lbm.Simplify.C84_second_order",
    "Lbm.Simplify.C84_cse",
    "Lbm.Simplify.C84_cse_drops",
    "Lbm.Simplify.C84_cse_partial",
    "Lbm.Simplify.C84_unused",
    "Lbm.Simplify.C84_substitute_moments",
    "Lbm.Simplify.C84_strategy",
    "Lbm.Simplify.C84_hints",
    "Lbm.Simplify.C84_common_twice",
    "Lbm.Simplify.C84_refused"
   ],
   "note": "all passes of population space, and the strategy, with sympy and pystencils as a structure of operations with contracts; false for cse_in_opposing_directions with more main assignments than populations: proved negation C84_cse_drops; execution order of its result only for at most one symbolic rate"
  },
  {
   "property": "C85",
   "status": "partial",
   "theorems": [
    "Lbm.HeatSolver.C85_any_order",
    "Lbm.HeatSolver.C85_stages",
    "Lbm.HeatSolver.C85_block",
    "Lbm.HeatSolver.C85_midpoint",
    "Lbm.HeatSolver.C85_three_fields",
    "Lbm.HeatSolver.C85_conduction",
    "Lbm.HeatSolver.C85_transport",
    "Lbm.HeatSolver.C85_steady",
    "Lbm.HeatSolver.C85_growth",
    "Lbm.HeatSolver.C85_initialise"
   ],
   "note": "One field is the midpoint rule. With three fields the claim is false of the code: C85_three_fields, C85_transport and C85_growth prove by how much. The difference weights come from pystencils and are a parameter; their exactness on affine functions is a hypothesis where used."
  },
  {
   "property": "C86",
   "status": "proved",
   "theorems": [
    "Lbm.Microchannel.C86_errors",
    "Lbm.Microchannel.C86_heat",
    "Lbm.Microchannel.C86_flow",
    "Lbm.Microchannel.C86_arrays",
    "Lbm.Microchannel.C86_period"
   ],
   "note": "Real numbers instead of floating point numbers. Both fluids have the viscosity given for the light phase, which is what the function assumes. Without transposition the entries of values and coordinates do not correspond (part of C86_arrays)."
  },
  {
   "property": "C87",
   "status": "proved",
   "theorems": [
    "Lbm.HighDensityRatio.C87_constant",
    "Lbm.HighDensityRatio.C87_chemical_potential",
    "Lbm.HighDensityRatio.C87_pressure",
    "Lbm.HighDensityRatio.C87_maxwell",
    "Lbm.HighDensityRatio.C87_double_well",
    "Lbm.HighDensityRatio.C87_minima"
   ],
   "note": "Antiderivative and zeros come out of sympy and are parameters with their defining properties; remove_small_floats is not modelled. Derivatives of the fields enter by the squares of their gradients."
  },
  {
   "property": "C88",
   "status": "partial",
   "theorems": [
    "Lbm.PhaseKernels.C88_mass",
    "Lbm.PhaseKernels.C88_run",
    "Lbm.PhaseKernels.C88_mobilities",
    "Lbm.PhaseKernels.C88_dissipation",
    "Lbm.PhaseKernels.C88_sum",
    "Lbm.PhaseKernels.C88_sum_preserved",
    "Lbm.PhaseKernels.C88_uniform",
    "Lbm.PhaseKernels.C88_pressure_momentum",
    "Lbm.PhaseKernels.C88_extra_force",
    "Lbm.PhaseKernels.C88_mu_momentum_partial",
    "Lbm.PhaseKernels.C88_mu_bulk_wrong",
    "Lbm.PhaseKernels.C88_uniform_force",
    "Lbm.PhaseKernels.C88_store",
    "Lbm.PhaseKernels.C88_pressure_symmetric",
    "Lbm.PhaseKernels.C88_pressure_uniform",
    "Lbm.PhaseKernels.C88_pressure_force",
    "Lbm.PhaseKernels.C88_mobilities_error"
   ],
   "note": "The claim that the force from chemical potentials adds no momentum is false of the code for the bulk terms (C88_mu_bulk_wrong); it is proved for the gradient terms, everything else in full. The difference schemes are those of pystencils, written from knowledge of pystencils; its source is not available here, so they are part of the trusted base."
  },
  {
   "property": "C89",
   "status": "partial",
   "theorems": [
    "Lbm.IterativeInit.C89_collision",
    "Lbm.IterativeInit.C89_mass",
    "Lbm.IterativeInit.C89_momentum",
    "Lbm.IterativeInit.C89_uniform",
    "Lbm.IterativeInit.C89_converges",
    "Lbm.IterativeInit.C89_force_wrong",
    "Lbm.IterativeInit.C89_assertion",
    "Lbm.IterativeInit.C89_success",
    "Lbm.IterativeInit.C89_failure",
    "Lbm.IterativeInit.C89_success_iff",
    "Lbm.IterativeInit.C89_bad_interval",
    "Lbm.IterativeInit.C89_rate_ignored",
    "Lbm.IterativeInit.C89_residuum",
    "Lbm.IterativeInit.C89_residuum_wrong"
   ],
   "note": "False of the code: with a force the velocity converges to something else (C89_force_wrong), only the last block of a process enters the residuum (C89_residuum_wrong), later calls keep the rate of the first one (C89_rate_ignored), and max_steps below the check interval is an AssertionError (C89_assertion). Everything else is proved. Moment-based methods; central moment and cumulant methods and boundaries are not covered. For compressible methods with force the density in the velocity shift is a parameter, as the clash of two definitions of rho is resolved inside pystencils."
  },
  {
   "property": "C90",
   "status": "proved",
   "theorems": [
    "Lbm.GhostLayers.C90_steps",
    "Lbm.GhostLayers.C90_phase_field",
    "Lbm.GhostLayers.C90_direct",
    "Lbm.GhostLayers.C90_nestler",
    "Lbm.GhostLayers.C90_returned",
    "Lbm.GhostLayers.C90_box",
    "Lbm.GhostLayers.C90_sync_needed"
   ],
   "note": "kernels are arbitrary functions of their stated accesses; that create_kernel leaves out the layers its widest access needs, and that synchronisation functions copy all ghost layers periodically, is taken from pystencils; boundary handling and the restriction of LatticeBoltzmannStep to the populations needed are left out"
  },
  {
   "property": "C91",
   "status": "proved",
   "theorems": [
    "Lbm.PhaseFieldRun.C91_phase_field",
    "Lbm.PhaseFieldRun.C91_step",
    "Lbm.PhaseFieldRun.C91_methods",
    "Lbm.PhaseFieldRun.C91_errors"
   ],
   "note": "combines C88, C90, C66 and C23; without boundary conditions; compressible flow methods and the force models He and CentralMoment are not covered by C91_methods"
  },
  {
   "property": "C92",
   "status": "proved",
   "theorems": [
    "Lbm.Nestler.C92_step",
    "Lbm.Nestler.C92_bulk",
    "Lbm.Nestler.C92_interfacial_sum",
    "Lbm.Nestler.C92_two_phases",
    "Lbm.Nestler.C92_absent",
    "Lbm.Nestler.C92_collision",
    "Lbm.Nestler.C92_conservation",
    "Lbm.Nestler.C92_sum_of_phases",
    "Lbm.Nestler.C92_absent_step",
    "Lbm.Nestler.C92_planar_interface",
    "Lbm.Nestler.C92_projection",
    "Lbm.Nestler.C92_run_projected",
    "Lbm.Nestler.C92_errors",
    "Lbm.Nestler.C92_velocity",
    "Lbm.Nestler.C92_methods",
    "Lbm.Nestler.C92_third_phase_arises"
   ],
   "note": "Weights of the difference stencils are parameters (pystencils). Against what one would expect: the order parameters are advected with a velocity lacking half of the force (C92_velocity), phases that are absent arise with negative values where the coefficient of triples is not zero (C92_third_phase_arises), and the profile in equilibrium has equal but not constant potentials (C92_planar_interface). The amounts are those of runs without projection; the projection itself does not conserve them."
  },
  {
   "property": "C93",
   "status": "proved",
   "theorems": [
    "Lbm.Derivatives.C93_laplacian",
    "Lbm.Derivatives.C93_gradient",
    "Lbm.Derivatives.C93_isotropy",
    "Lbm.Derivatives.C93_laplacian_symmetric",
    "Lbm.Derivatives.C93_gradient_antisymmetric",
    "Lbm.Derivatives.C93_errors",
    "Lbm.Derivatives.C93_second_weights",
    "Lbm.Derivatives.C93_second_weights_2d",
    "Lbm.Derivatives.C93_first_weights",
    "Lbm.Derivatives.C93_first_weights_2d",
    "Lbm.Derivatives.C93_second_15"
   ],
   "note": "the weights come from pystencils, which is not in the repository; they are tables, proved to be the only ones with the requirements stated in the specification; against the docstring: the Laplacian with 15 directions is not isotropic"
  },
  {
   "property": "C94",
   "status": "proved",
   "theorems": [
    "Lbm.CentralTransforms.C94_transforms",
    "Lbm.CentralTransforms.C94_offered_sets",
    "Lbm.CentralTransforms.C94_low_dimension_index_error",
    "Lbm.CentralTransforms.Witness.C94_2d_aliases"
   ],
   "note": "the agreement is proved for sets whose monomials contain everything below them, and backgrounds whose raw moments agree on aliases; both hold for all offered sets and isotropic backgrounds; below three dimensions aliases lead to an IndexError of the binomial transform, which is the last two theorems"
  },
  {
   "property": "C95",
   "status": "proved",
   "theorems": [
    "Lbm.HeCentral.C95_central_moments",
    "Lbm.HeCentral.C95_forcing",
    "Lbm.HeCentral.C95_integral",
    "Lbm.HeCentral.C95_momentum",
    "Lbm.HeCentral.C95_offered_sets",
    "Lbm.HeCentral.D3Q15.C95_d3q15"
   ],
   "note": "for the cascaded moments of D3Q15, the default of the central moment method there, the claim is false; C95_d3q15 gives the value the code computes"
  },
  {
   "property": "C96",
   "status": "partial",
   "theorems": [
    "Lbm.SymbolicForce.C96_value",
    "Lbm.SymbolicForce.C96_inputs",
    "Lbm.SymbolicForce.C96_clash_free",
    "Lbm.SymbolicForce.C96_capture",
    "Lbm.SymbolicForce.C96_cycle",
    "Lbm.SymbolicForce.C96_saturated_cycle",
    "Lbm.SymbolicForce.C96_saturated",
    "Lbm.SymbolicForce.C96_truncated",
    "Lbm.SymbolicForce.C96_capture_witness",
    "Lbm.SymbolicForce.C96_in_front"
   ],
   "note": "The value in the final state is proved for all forces. The value on entry is proved without a clash of names (every order, frame condition). With a clash it is false: the symbol F_j in another place takes the value of component j (general theorem and witness), a component mentioning its own name makes the collection cyclic, also for a plain symbol F_j scaled by the fluid fraction."
  },
  {
   "property": "C97",
   "status": "partial",
   "theorems": [
    "Lbm.RawTransforms.C97_matrix",
    "Lbm.RawTransforms.C97_matrix_monomials",
    "Lbm.RawTransforms.C97_chimera_exists",
    "Lbm.RawTransforms.C97_chimera",
    "Lbm.RawTransforms.C97_agree",
    "Lbm.RawTransforms.C97_offered_sets",
    "Lbm.RawTransforms.Witness.C97_too_many_monomials",
    "Lbm.RawTransforms.Witness.C97_background_differs"
   ],
   "note": "Proved: existence of both transforms characterised, inverse directions, agreement for every background that respects aliases and for all offered sets. False in general: for x^2 + x y on D3Q7 only the matrix transform exists, for x^2 + x^6 the transforms add different background moments (witnesses)."
  },
  {
   "property": "C98",
   "status": "proved",
   "theorems": [
    "Lbm.GpuCopy.C98_kernel",
    "Lbm.GpuCopy.C98_gpu_is_cpu",
    "Lbm.GpuCopy.C98_overlap",
    "Lbm.GpuCopy.schedule_exists"
   ],
   "note": "One ghost layer, as in C12. The launch of a kernel over an empty slice is not modelled."
  },
  {
   "property": "C99",
   "status": "proved",
   "theorems": [
    "Lbm.CentralForcing.C99_terms",
    "Lbm.CentralForcing.C99_mass_momentum",
    "Lbm.CentralForcing.C99_second",
    "Lbm.CentralForcing.C99_second_edm",
    "Lbm.CentralForcing.C99_populations",
    "Lbm.CentralForcing.C99_guo_raw",
    "Lbm.CentralForcing.C99_symmetric",
    "Lbm.CentralForcing.Example.C99_guo_differs"
   ],
   "note": "The force of He in central moment space is C95."
  }
 ]
}