{"id": "C01", "title": "All streaming patterns compute the same flow", "statement": "Running a kernel generated with any streaming pattern (pull, push, aa, esotwist, esopull, esopush), alternating even/odd kernels for the in-place ones, delivers to every cell in every time step exactly the populations the textbook collide-then-stream scheme delivers: the population read at cell x for direction c is the one the cell x-c wrote for direction c one step earlier.", "quantifier": "every valid inverse-closed stencil of any dimension, every collision operator (possibly cell- and time-dependent), every initial field, every number of time steps, every (periodic or not) lattice of cells", "why_tests_cant": "Tests run a few scenarios for a few steps with one collision operator; the claim ranges over all operators, initial states and numbers of steps.", "anchors": ["src/lbmpy/fieldaccess.py:PdfFieldAccessor and subclasses", "src/lbmpy/advanced_streaming/utility.py:get_accessor,Timestep", "src/lbmpy/updatekernels.py:create_lbm_kernel"]}
{"id": "C02", "title": "In-place kernels are race free: the cell order does not matter", "statement": "With the single-array patterns (aa, esotwist, esopull, esopush) a sweep over the cells gives the same array whatever order the cells are visited in, and no cell reads or overwrites a value that another cell of the same sweep reads or writes.", "quantifier": "every stencil, every collision operator, every array content, every set of cells and every permutation of it, both parities", "why_tests_cant": "A test can try a handful of orders (in practice one, the compiled loop order); races are about all schedules.", "anchors": ["src/lbmpy/fieldaccess.py:AAEvenTimeStepAccessor,AAOddTimeStepAccessor,EsoTwist*,EsoPull*,EsoPush*", "src/lbmpy/updatekernels.py:create_lbm_kernel"]}
{"id": "C03", "title": "Two-array kernels write every target value exactly once", "statement": "With pull or push, in one sweep each (cell, direction) slot of the destination array receives at most one value, distinct (cell, direction) pairs go to distinct slots, and the sweep result does not depend on the order of cells.", "quantifier": "every stencil, cell set, order, collision operator and pair of arrays", "why_tests_cant": "Conflicting writes only show up for particular orders / parallel schedules.", "anchors": ["src/lbmpy/fieldaccess.py:StreamPullTwoFieldsAccessor,StreamPushTwoFieldsAccessor,CollideOnlyInplaceAccessor", "src/lbmpy/updatekernels.py:create_lbm_kernel,create_stream_only_kernel"]}
{"id": "C04", "title": "A collide-then-stream split equals the fused kernel", "statement": "Running a collide-only kernel and afterwards a stream-only pull kernel gives, per time step, the same sequence of post-collision states as the fused kernels started from the appropriately streamed state.", "quantifier": "every stencil, collision operator, initial state and number of steps", "why_tests_cant": "Equality of two histories for all inputs.", "anchors": ["src/lbmpy/updatekernels.py:create_stream_only_kernel,create_lbm_kernel", "src/lbmpy/lbstep.py:LatticeBoltzmannStep.time_step"]}
{"id": "C05", "title": "Streaming never creates or loses populations", "statement": "On a periodic lattice, with a collision operator that preserves a sum over directions of each cell (mass, momentum, ...), the global total of that quantity as delivered to the cells is the same before and after any number of time steps, for every streaming pattern.", "quantifier": "every pattern, finite periodic lattice, conserved linear quantity, collision operator preserving it, initial state, number of steps", "why_tests_cant": "Conservation over all histories.", "anchors": ["src/lbmpy/fieldaccess.py", "src/lbmpy/advanced_streaming/utility.py"]}
{"id": "C06", "title": "Unsupported combinations are rejected, never silently mistranslated", "statement": "Asking for an unknown streaming pattern, or for an in-place pattern without saying which of the two timesteps is meant, raises ValueError; every supported pattern/timestep pair gives an accessor. In-place timesteps alternate: the timestep after the next one is the same again.", "quantifier": "all pattern names and timesteps", "why_tests_cant": "The set of names is infinite.", "anchors": ["src/lbmpy/advanced_streaming/utility.py:is_inplace,get_accessor,get_timesteps,Timestep", "src/lbmpy/fieldaccess.py:_get_lehmann_stencil"]}
{"id": "C07", "title": "Boundary proxies address the right populations between time steps", "statement": "Between two time steps f_out(i) of a cell denotes exactly the slot where the previous kernel stored the cell's post-collision population i, and f_in(i) exactly the slot where the next kernel of the pattern will read population i; a direction given as a run-time index through generated lookup tables addresses the same slot as the same direction given as a compile-time constant, also for inverse directions and offset accesses to neighbours.", "quantifier": "every pattern, timestep, stencil, direction, cell and neighbour offset", "why_tests_cant": "All directions times all patterns times all stencils, and the trivial-translation shortcut is chosen differently for each.", "anchors": ["src/lbmpy/advanced_streaming/indexing.py:BetweenTimestepsIndexing", "src/lbmpy/advanced_streaming/utility.py:AccessPdfValues,inverse_dir_index"]}
{"id": "C08", "title": "No-slip is half-way bounce back in every streaming pattern", "statement": "After the no-slip boundary kernel ran over a set of wall links, the population each linked fluid cell will read next for the reversed link direction equals the population that cell sent towards the wall; every population whose source is a fluid cell is untouched.", "quantifier": "every pattern, stencil, link set, field content, link order", "why_tests_cant": "All geometries and all orders in which links are processed.", "anchors": ["src/lbmpy/boundaries/boundaryconditions.py:NoSlip", "src/lbmpy/boundaries/boundaryhandling.py:create_lattice_boltzmann_boundary_kernel", "src/lbmpy/advanced_streaming/indexing.py"]}
{"id": "C09", "title": "Closed domains conserve mass forever", "statement": "A finite fluid domain whose every missing link is a no-slip link keeps its total mass exactly constant over any number of time steps with any mass-conserving collision operator, in every streaming pattern.", "quantifier": "every finite cell set, stencil, pattern, collision operator with conserved zeroth moment, initial state, number of steps", "why_tests_cant": "Long-time drift; all geometries.", "anchors": ["src/lbmpy/boundaries/boundaryconditions.py:NoSlip", "src/lbmpy/boundaries/boundaryhandling.py:LatticeBoltzmannBoundaryHandling"]}
{"id": "C10", "title": "Free-slip reflects specularly and agrees with its automatic normal detection", "statement": "With a fixed axis-aligned wall normal, free-slip hands the reversed link direction the population of the direction mirrored at the wall; mirroring is an involution, keeps the tangential and flips the normal component. Computed direction indices always belong to the stencil.", "quantifier": "every stencil, direction, wall normal, mask", "why_tests_cant": "All directions, normals and geometries.", "anchors": ["src/lbmpy/boundaries/boundaryconditions.py:FreeSlip", "src/lbmpy/custom_code_nodes.py:MirroredStencilDirections"]}
{"id": "C100", "title": "Compiled setters and getters of macroscopic values agree on every cell both treat", "statement": "For every streaming pattern and time step, a compiled setter stores the equilibrium of the given density and velocity (default 1 and 0) in exactly the cells whose accesses stay inside the array, and a compiled getter reads these values back in every cell of its iteration space, writing nothing outside of it and only the quantities asked for; unknown quantities, missing output arrays and in-place patterns without a time step are errors. Cells excluded by ghost_layers or iteration_slice are to be left alone.", "quantifier": "all stencils and streaming patterns, all methods with hydrodynamic equilibrium and force model, all array shapes, contents, iteration arguments and orders of the cells", "why_tests_cant": "The two tests use pull, one array size and uniform values and compare the whole array or its interior; they cannot see that the setter ignores ghost_layers and iteration_slice, nor other patterns.", "anchors": ["src/lbmpy/macroscopic_value_kernels.py:88-242", "src/lbmpy/methods/conservedquantitycomputation.py:251-272"]}
{"id": "C101", "title": "Strain rate tensor and populations before the collision", "statement": "strain_rate_tensor_getter gives the symmetric part of the velocity gradient: in every exact steady linear flow of a scheme with the linear equilibrium, on every lattice isotropic of fifth order, the value is exact in every cell, from the array a kernel has written. use_pre_collision_pdfs and set_pre_collision_pdfs access, for every streaming pattern, the populations the next step reads. The tensor is symmetric, each component is assigned once, and it is zero in equilibrium.", "quantifier": "all stencils, streaming patterns and time steps, all traceless velocity gradients, relaxation rates and collisions relaxing the shear stress with one rate, all arrays and cells", "why_tests_cant": "The only test of the getter counts the assignments; the flag use_pre_collision_pdfs is tested with pull only. The value in a flow and the in-place patterns are never executed.", "anchors": ["src/lbmpy/macroscopic_value_kernels.py:14-85", "src/lbmpy/utils.py:4-7"]}
{"id": "C102", "title": "Exact differencing force model with forces depending on the velocity", "statement": "The force terms of EDM are the difference of the equilibrium at the velocity shifted by F/rho and at the velocity itself, with the force F, which may be any expression in density and velocity, evaluated at the unshifted velocity; the momentum added is F.", "quantifier": "all force expressions, all equilibrium expressions with the right first moment, all values of density and velocity, any number of dimensions", "why_tests_cant": "EDM is tested with constant forces only; with these the order of substitutions does not matter.", "anchors": ["src/lbmpy/forcemodels.py:492-509"]}
{"id": "C103", "title": "Boundary conditions and macroscopic values on cell lists", "statement": "The boundary kernel that SparseLbBoundaryMapper derives for a cell list changes the list exactly as the boundary condition changes the full array, so that any number of boundary and stream-collide steps on lists are those on arrays; bounce back used as such a boundary condition gives the fluid what the no-slip flag built into the index list gives. Setting density and velocity on a list and reading them back returns the values set in every cell. A boundary condition that cannot be translated is reported.", "quantifier": "all flag arrays, stencils, boundary conditions given by assignments with offsets and indices depending on the link direction, link lists in any order, list layouts, collision rules, states and numbers of steps; all methods of C21, force models and storage formats", "why_tests_cant": "The sparse boundary mapper has no tests in the package; its correctness depends on the flags of all neighbours of all links, and an index that is not found is replaced by another one without an error.", "anchors": ["src/lbmpy/sparse/mapping.py:157-241", "src/lbmpy/sparse/update_rule_sparse.py:54-80", "src/lbmpy/boundaries/boundaryconditions.py:35"]}
{"id": "C104", "title": "Initial data of the extrapolation outflow", "statement": "Without initial values the outflow records for every link the population of the domain cell next to the boundary for the direction into the domain, read where the last step has written it, so that a steady state is reproduced by the outflow in every later step, for every streaming pattern. With an initial density and velocity the second recorded value is the population of an equilibrium that has exactly this density and this velocity. Values that cannot be used are reported.", "quantifier": "all stencils closed under inversion, streaming patterns and time steps, normals, link lists in any order, fields and numbers of later steps; all methods of C21, storage formats, densities and velocities", "why_tests_cant": "The only test compares the recorded data with the weights for the density 1 in one configuration, and thereby accepts a wrong density; the position of the populations depends on pattern and parity.", "anchors": ["src/lbmpy/boundaries/boundaryconditions.py:919-991", "src/lbmpy/equilibrium/discrete_hydro_maxwellian.py:58-86"]}
{"id": "C105", "title": "A simulation is the flow in the domain", "statement": "Time steps of LatticeBoltzmannStep on arrays with a ghost layer (synchronisation of periodic sides, boundary handling, kernel, swap) compute in every cell of the flow exactly the populations of the flow in the domain with its periodic sides and walls, whatever is in ghost layers, wall cells and the second array; no mass is lost at no-slip walls. The two orders of a time step compute the same flow and report the same density and velocity for it. A streaming pattern the step cannot execute is reported.", "quantifier": "all stencils closed under inversion, box sizes, choices of periodic axes, wall cells, link lists and loop orders, boundary conditions computed from the populations of a cell, collisions, initial contents of both arrays and numbers of steps; all force models of C23 for the reported values", "why_tests_cant": "Tests run single scenarios and compare with tolerances; a wrong ghost value or a value read from a wall cell changes the flow a little after some steps, and a constant offset of the reported velocity by the force is below these tolerances.", "anchors": ["src/lbmpy/lbstep.py:46-50", "src/lbmpy/lbstep.py:121-165", "src/lbmpy/lbstep.py:271-282", "src/lbmpy/lbstep.py:311-327", "src/lbmpy/lbstep.py:434-450", "src/lbmpy/creationfunctions.py:620-635"]}
{"id": "C106", "title": "Force driven flow between plates is the parabola", "statement": "A steady simulation of a force driven flow between two plates with bounce back, the same in all cells of a row, has no velocity normal to the plates, and the velocity along the plates is exactly poiseuille_flow for plates half a cell outside of the outermost cells, whatever the viscosity, if the second relaxation rate comes from the magic number 3/16; with other rates a constant slip is added that depends on the rates only through the magic number minus 3/16. Such a flow exists. Both orders of a time step report this velocity.", "quantifier": "all predefined stencils with 9, 15, 19 or 27 directions, any pair of axes, box sizes, rates, orders of the moments, equilibria of all orders (from third order on without force or momentum across the flow), compressible or not, storage formats, force models Simple, Luo, Guo, Buick, EDM and ShanChen, forces along the plates; any collision with the moments a flow between plates sees", "why_tests_cant": "Tests compare a simulated channel with the parabola for one resolution, viscosity and tolerance; a wall shifted by a fraction of a cell, a slip that grows with the viscosity or an offset by the force stay below the tolerance.", "anchors": ["src/lbmpy/relaxationrates.py:12-20", "src/lbmpy/methods/creationfunctions.py:252-279", "src/lbmpy/methods/creationfunctions.py:282-304", "src/lbmpy/analytical_solutions.py:5-20", "src/lbmpy/scenarios.py:105-172", "src/lbmpy/lbstep.py:271-282", "src/lbmpy/boundaries/boundaryconditions.py:104-139"]}
{"id": "C107", "title": "Flow between moving plates has the velocity of the plates half a cell outside", "statement": "A steady simulation between two plates with the boundary condition UBB, the same in all cells of a row, has no velocity normal to the plates, and the momentum along the plates is exactly the linear profile between the momenta of the plates, taken half a cell outside of the outermost cells, whatever the relaxation rates; a force adds the parabola and slip of C106. For incompressible methods without force the reported velocity is the linear profile of the given velocities, for both orders of a time step. Such a flow exists.", "quantifier": "all predefined stencils with 9, 15, 19 or 27 directions, any pair of axes, box sizes, rates, plate velocities along the plates, given or computed density, compressible or not, forces along the plates; any collision with the moments a flow between plates sees", "why_tests_cant": "Tests compare a Couette flow at one resolution with a tolerance; a factor in the velocity term of the boundary condition that is wrong for one stencil, or a wall shifted by a fraction of a cell, can stay below it.", "anchors": ["src/lbmpy/boundaries/boundaryconditions.py:794-838", "src/lbmpy/lbstep.py:271-282", "src/lbmpy/methods/creationfunctions.py:252-279", "src/lbmpy/macroscopic_value_kernels.py:88-167"]}
{"id": "C108", "title": "Diffusion between plates with prescribed concentrations", "statement": "A method with two relaxation times built with velocity_input conserves mass for every velocity field, relaxes the first moments with the odd rate to the flux of the given velocity and the second moments with the even rate; density_input without velocity_input is refused. Between plates with DiffusionDirichlet (without velocity_field) every steady state that is the same in all cells of a row, with velocities along the plates, has exactly the linear concentration profile between the plates placed half a cell outside of the outermost cells, for all rates, and the flux -D times the gradient with D = (1/omega - 1/2)/3; such states exist for every pair of concentrations.", "quantifier": "all predefined stencils with unit velocities (D2Q9, D3Q7, D3Q15, D3Q19, D3Q27), all orders of the default moments, all rates (not 0; odd rate not 2), all equilibrium orders (D3Q7: first), compressible or not, all channel sizes, all concentrations, all row-wise velocity fields along the plates, both kernel orders", "why_tests_cant": "tests compare a few profiles with a tolerance and only for one set of rates; exactness for all rates, sizes and velocity fields is an algebraic fact", "anchors": ["src/lbmpy/creationfunctions.py:656-684", "src/lbmpy/boundaries/boundaryconditions.py:1159-1181", "src/lbmpy/lbstep.py:271-282"]}
{"id": "C109", "title": "Simulations of diffusion are stable and converge", "statement": "A simulation of a method with two relaxation times and velocity_input zero is stable: with rates between 0 and 2 the weighted distance of the populations from any uniform state compatible with the walls never grows, so that no population ever leaves bounds given by the initial state. With rates strictly between 0 and 2 it converges from every initial state: with NoSlip walls or none, in a connected flow of any shape, the reported density tends in every cell to the mean of the initial density; if every cell is connected to a link with DiffusionDirichlet, there is exactly one steady state for the prescribed concentrations and the populations tend to it; between plates the reported density tends to the linear profile. With a rate outside of [0,2] there are initial states whose populations grow beyond all bounds. For D3Q7 with its default weights (no weight at rest) the convergence fails: in periodic boxes of even size a checkerboard never decays.", "quantifier": "all predefined stencils with 9, 15, 19 and 27 directions (positive weights), all rates, all domains with finitely many cells, arbitrary walls and periodicity, all prescribed concentrations per link, all initial states, all numbers of steps, both kernel orders", "why_tests_cant": "a test can run finitely many steps from a few initial states; that no initial state ever leaves its bounds and that all of them converge, in every geometry, is a statement about infinitely many steps, proved with a Lyapunov function and compactness", "anchors": ["src/lbmpy/creationfunctions.py:656-684", "src/lbmpy/lbstep.py:271-282", "src/lbmpy/methods/creationfunctions.py:252-279", "src/lbmpy/boundaries/boundaryconditions.py:1159-1181"]}
{"id": "C11", "title": "Periodic two-field access is exactly torus streaming", "statement": "The periodic pull accessor reads, for each inner cell and direction, the cell obtained by subtracting the direction and wrapping around the inner domain; no read ever leaves the inner domain and each inner slot is read exactly once per sweep.", "quantifier": "every domain size, ghost layer count, periodicity flags, direction with entries in {-1,0,1}, inner cell", "why_tests_cant": "All sizes and cells; off-by-one at the wrap depends on the size.", "anchors": ["src/lbmpy/fieldaccess.py:PeriodicTwoFieldsAccessor"]}
{"id": "C110", "title": "Simulations of flow with walls: stability of Stokes flow and the alternating momentum", "statement": "Stokes flow is stable: for methods with two relaxation times, incompressible equilibrium of first order and a force of model Simple, rates between 0 and 2, the weighted distance between two simulations with the same NoSlip or UBB walls and the same force never grows, in any geometry; so between plates the populations never get farther from the steady flow than they were at first. For every incompressible method without force, equilibria of all orders, all moments and rates, in every geometry with NoSlip walls (and an even number of cells along an axis that is periodic), the sum of the momenta along an axis with signs that alternate from cell to cell only changes its sign in every time step, in both kernel orders; unless it is zero at first, the simulation never becomes steady.", "quantifier": "all predefined stencils with 9, 15, 19 and 27 directions (the alternating momentum also with 7), all valid options, all rates, all domains with finitely many cells, arbitrary walls and periodicity, all forces and wall velocities, all initial states, all numbers of steps, both kernel orders", "why_tests_cant": "stability and the absence of convergence are statements about infinitely many steps from every initial state in every geometry; tests start from smooth initial flows, in which the alternating momentum is nearly zero, and do not see that it is never damped whatever the viscosity", "anchors": ["src/lbmpy/lbstep.py:271-282", "src/lbmpy/methods/creationfunctions.py:252-279", "src/lbmpy/boundaries/boundaryconditions.py:128-139", "src/lbmpy/boundaries/boundaryconditions.py:794-838", "src/lbmpy/methods/momentbased/momentbasedmethod.py:176-191"]}
{"id": "C111", "title": "Conversion of compressible to incompressible equilibrium moments", "statement": "compressible_to_incompressible_moment_value is linear; a moment with the factor rho, rho*q(u), becomes rho*q(0) + q(u) - q(0), so the density multiplies only the contribution of the fluid at rest. Applied to any polynomial that describes a moment of the compressible discrete Maxwellian (any predefined stencil, order, moment, absolute or delta equilibrium) or of the continuous Maxwellian with background density one (any truncation order) it yields the moment of the incompressible equilibrium of the code. The conversion is idempotent on terms of degree at most one in rho and not in general. hydrodynamic_moment_values, which writes c_s**2 = p/rho, yields the moments of the discrete Maxwellian with p = rho/3 up to order three for compressible=True and up to order two for compressible=False.", "quantifier": "all polynomials, symbols, densities, velocities, stencils, equilibrium orders and moments", "why_tests_cant": "The conversion is a term rewriting on symbolic expressions; a test compares single expressions, not the equality with the other equilibrium for all moments.", "anchors": ["src/lbmpy/maxwellian_equilibrium.py:230-266", "src/lbmpy/quadratic_equilibrium_construction.py:95-108", "src/lbmpy/equilibrium/continuous_hydro_maxwellian.py:97-115"]}
{"id": "C112", "title": "Taking moments of an equation sums it over the directions", "statement": "take_moments of an equation that is linear in the populations returns the sum of the equation over all directions of a stencil, written with symbols of moments: the value of the result, with each symbol replaced by the moment of the populations it names, is that sum, with derivatives, coefficients and several kinds of populations, and with aliasing on first neighbourhood stencils. Products with several populations or none are rejected.", "quantifier": "all equations that are sums of products, all numbers and velocities of directions, populations with values in any algebra of fields over the constants, derivatives linear over the constants, any names, orders of expansion, exponents", "why_tests_cant": "Tests take moments of the one equation of the ansatz and compare symbols; a moment with an exponent in the wrong place or a coefficient pulled out of a derivative gives a plausible symbol.", "anchors": ["src/lbmpy/chapman_enskog/chapman_enskog.py:339-396", "src/lbmpy/moments.py:269-289"]}
{"id": "C113", "title": "Matching with the Navier-Stokes equations", "statement": "match_to_navier_stokes returns compressibility, pressure and stress such that the given conservation equations are the Navier-Stokes equations with this pressure and this stress: continuity, and time derivative of momentum plus divergence of the momentum flux plus gradient of the sum of the pressure terms plus divergence of the stress, for all fields. It returns exactly when the continuity equation is the reference and what is left of each momentum equation has at least two terms, all spatial first derivatives. For the equations the package derives the pressure is the density times the squared speed of sound and the stress the given moments.", "quantifier": "all dimensions, all fields of constants, all conservation equations whose difference from convection has constant coefficients, all orders in which atoms are visited, all fields and derivations on any algebra", "why_tests_cant": "Tests match the equations of one or two methods; a term counted as pressure in one equation only, or a stress entry in the transposed place, has the same printed form for isotropic methods.", "anchors": ["src/lbmpy/chapman_enskog/chapman_enskog.py:556-616"]}
{"id": "C114", "title": "Simplifying conditions on zero keeps the value", "statement": "simplify_zero_conditions returns an expression with the same value for all values of the symbols that agree with their assumptions, undefined where the original is undefined, whatever the order of the set of variables; for cases that are not nested with conditions on products, as capital_h makes them, every condition afterwards tests a single symbol. The zero_threshold of chemical_potential_n_phase_boyer evaluates the expression with symbols below the threshold set to zero and changes nothing where all symbols are above.", "quantifier": "all expressions built with sums, products, reciprocals, absolute values and Piecewise, nested or not, all conditions made of products compared with zero, all ordered fields, all orders of the variables, all assumptions, all thresholds above zero", "why_tests_cant": "A case that is dropped or taken wrongly shows only on the sets where a concentration vanishes exactly, which floating point tests rarely hit.", "anchors": ["src/lbmpy/phasefield/n_phase_boyer.py:285-315", "src/lbmpy/phasefield/n_phase_boyer.py:339-342"]}
{"id": "C115", "title": "Solving the hierarchy of moment equations", "statement": "chain_solve_and_substitute: values of the unknowns satisfy the given equations exactly when they are those of the returned dict and the returned equations that contain no unknown hold; if each equation has one unknown more than the ones before, all are solved for in order, and the system has no other solution; two unknowns at once are rejected. compute_higher_order_moment_subs_dict: moments and time derivatives that satisfy the moment equations have the values of its result, and these values satisfy the equations.", "quantifier": "all lists of equations affine in the unknowns with coefficients in any field, remainders in any vector space, any linear evaluation of the remainders, all values", "why_tests_cant": "Tests run the hierarchy of one or two methods and compare the final viscosity; a solution substituted too late changes a term of higher order only.", "anchors": ["src/lbmpy/chapman_enskog/chapman_enskog.py:411-438", "src/lbmpy/chapman_enskog/chapman_enskog.py:619-629"]}
{"id": "C116", "title": "What the copy kernel transfers", "statement": "create_copy_kernel run over some cells: the destination holds the source at the locations these cells write, and is unchanged elsewhere, for any order of the cells; with one array for both fields nothing changes. With the accessor of a time step of a streaming pattern the next step reads a population of the source exactly where the cell it comes from was copied, so on a periodic domain the destination equals the source, and on the infinite lattice a finite set of cells always reads some old population next.", "quantifier": "all stencils, accessors, lists of cells in any order and with repetitions, array contents; for the statements on the next step all supported streaming patterns and time steps", "why_tests_cant": "Tests copy one array with the default accessor, if at all; border populations and the time steps of the in-place patterns need all patterns and domains.", "anchors": ["src/lbmpy/updatekernels.py:123-140", "src/lbmpy/fieldaccess.py:22-46"]}
{"id": "C117", "title": "Domain sizes that fit into a memory", "statement": "square_size and cube_size return the length L such that a domain with n cells in each direction has population arrays of at most the given bytes exactly when n <= L (n <= L - 2g with g ghost layers). cache_domain_size_overview has one row for each memory in order with these lengths, or the error of the first size that is not understood. convert_memory_size multiplies the number by 2^10, 2^20 or 2^30 for KB, MB, GB in any case, and rejects every other unit. The table shows lengths rounded to one digit, so a whole number that is shown need not fit.", "quantifier": "all memory sizes that are not negative, numbers of populations, arrays and item sizes, all n, all lists of memories and strings of a number, unit and spaces", "why_tests_cant": "The doctest compares one table; the boundary between fitting and not fitting is at sizes that no sample hits.", "anchors": ["src/lbmpy/max_domain_size_info.py:47-102", "src/lbmpy/max_domain_size_info.py:142-158"]}
{"id": "C118", "title": "Density offset, division and velocity shift of moment equations", "statement": "add_density_offset, divide_first_order_moments_by_rho and apply_force_model_shift on equations rho = ..., u_i = ..., others: the run gives the density with the offset, velocities j_i/rho + shift_i(rho) with this density, and the other quantities unchanged; offset and division may be applied in either order; a shift followed by the reverse shift gives the old equations; a shift with fewer components than the dimension removes that many velocity equations without an error.", "quantifier": "all lists of assignments with distinct left sides that do not read each other, dimensions, offsets, shift functions, values of the symbols in any field", "why_tests_cant": "The three functions are called by no test; a wrong density in the shift shows only with a force and an offset together.", "anchors": ["src/lbmpy/methods/conservedquantitycomputation.py:455-503"]}
{"id": "C119", "title": "Bulk and interface part of a free energy", "statement": "separate_into_bulk_and_interface: the bulk part contains no gradient and is the value of the free energy with all gradients zero; the parts add up to the free energy; the interface part vanishes in a uniform state; a bulk term without gradients plus a term that vanishes without them (such as sums of products of gradients) is separated into these two; separating again changes nothing. With a gradient in a denominator both parts are undefined.", "quantifier": "all expressions of sums, products, powers, reciprocals, functions and nested gradients, all values of the symbols and of the gradients in any field", "why_tests_cant": "The doctest separates one functional with three phases.", "anchors": ["src/lbmpy/phasefield/analytical.py:196-207"]}
{"id": "C12", "title": "Periodicity handling fills exactly the ghost values the next step needs", "statement": "After LBMPeriodicityHandling ran, each population read next by an inner cell that streams in over a periodic border equals the population sent out at the opposite side of the domain (torus semantics).", "quantifier": "every domain size, pattern, direction, periodicity flags, ghost layer width, order of the per-direction copies", "why_tests_cant": "All sizes, patterns, ghost layer widths.", "anchors": ["src/lbmpy/advanced_streaming/communication.py:get_communication_slices,LBMPeriodicityHandling,_get_neighbour_transform,_trim_slice_in_direction,_extend_dir"]}
{"id": "C120", "title": "Setting and reading concentrations of phase-field models", "statement": "set_concentration changes the cells of the slice only. create_n_phase_model: the concentrations read afterwards are those set except for the last, which is one minus the others; they are those set exactly if these add up to one, and there is a warning exactly if the sum is off by more than 1e-5; set_single_concentration gives the last phase one minus the value, and ignores the value for the last phase. create_three_phase_model with density: what is set is read. Without density: setting is an error for every list, reading inverts the order parameters of concentrations with sum one. Without conversion what is set is read, shorter lists leave the later phases.", "quantifier": "all numbers of phases (at least two order parameters), concentrations in an ordered field, slices, states, phases and values", "why_tests_cant": "Tests set pure phases with sum one; the test of the model without density is commented out.", "anchors": ["src/lbmpy/phasefield/phasefieldstep.py:47-56", "src/lbmpy/phasefield/phasefieldstep.py:262-276", "src/lbmpy/phasefield/phasefieldstep.py:297-309", "src/lbmpy/phasefield/scenarios.py:12-87"]}
{"id": "C121", "title": "Initial profiles of the phase-field experiments", "statement": "init_sharp_interface sets the order parameter to one strictly between the bounds (x2 - x1 - 1 cells) and zero elsewhere, inversely initialised phases add up to one; init_tanh gives values strictly between zero and one for bounds in order (negative everywhere for exchanged bounds), within exp(-(x2-x)/width) of a single interface at x1; both are symmetric to the middle of the bounds, leave other order parameters unchanged and ignore a phase without an order parameter. The interface of the sharp profile is half a cell from that of the smooth one.", "quantifier": "all bounds, widths, cells, domain sizes, phases and earlier values", "why_tests_cant": "The functions are used in experiments that compare after thousands of time steps with a tolerance.", "anchors": ["src/lbmpy/phasefield/experiments1D.py:55-95"]}
{"id": "C122", "title": "Discrete relative entropy and its approximation", "statement": "For positive populations and references discrete_entropy is at most the difference of the masses, with equality exactly for equal populations and references; discrete_approx_entropy is a lower bound of it and equals the difference of the masses minus the sum of (f-r)^2/r. Near the reference the entropy is only half of that square up to third order, so with equal masses the approximation is twice the entropy to leading order.", "quantifier": "all lists of positive reals of the same length; for the last part deviations of at most half the reference", "why_tests_cant": "Tests compare rates computed from the approximation only; inequalities between transcendental functions of all populations cannot be sampled.", "anchors": ["src/lbmpy/methods/momentbased/entropic.py:188-210"]}
{"id": "C123", "title": "Inserting moments keeps the value of Chapman-Enskog equations", "statement": "insert_moments and substitute_collision_operator_moments do not change the value of an equation in which equilibrium moments, conserved moments (solvability conditions) and moments after the collision have their values, and afterwards none of the moments to be replaced is left. LbMethodEqMoments.substitute does the same for expressions that raise only numbers, symbols and moments before the collision to powers; powers of moments after the collision mean repeated collisions, and the exponent of a sum or of a derivative is lost, so 1/(1+x) becomes 1+x.", "quantifier": "all expressions, values of moments, symbols and derivatives", "why_tests_cant": "Tests insert moments into the equations of a few methods only, in which no power of a sum occurs.", "anchors": ["src/lbmpy/chapman_enskog/chapman_enskog.py:283-336"]}
{"id": "C124", "title": "Solvability conditions and loops of the higher-order Chapman-Enskog analysis", "statement": "get_solvability_conditions sets exactly the moments of order at most one to zero, for both kinds of moments and all expansion orders from zero to the given one. Inserted after the equilibrium moments, as determine_higher_order_moments does, they keep the value of an equation if the higher parts of density and momentum vanish; inserted first they remove density and momentum. The inner loop of determine_higher_order_moments assigns to the variable that bounds it; nevertheless each pair of expansion order 1..order-1 and moment order 0..order is treated exactly once, in lexicographic sequence.", "quantifier": "all dimensions, orders, expressions and values of moments", "why_tests_cant": "Tests run the analysis for one method and order; the condition at order zero and the reused loop variable would show only if the insertion or the loops were changed.", "anchors": ["src/lbmpy/chapman_enskog/chapman_enskog_higher_order.py:35-91"]}
{"id": "C125", "title": "Recombining derivatives is the inverse of expanding them", "statement": "chapman_enskog_derivative_recombination after chapman_enskog_derivative_expansion with the same orders gives back the value of every expression whose derivatives have no superscript, for all values of derivatives and their parts; each of them keeps the value if the derivatives are the power series of their parts, and so does _ce_recombine. The expansion leaves no derivative without superscript, the recombination none of the highest order. The expansion does not look at superscripts, so it changes expressions that were expanded already, and an empty range of orders turns derivatives into zero.", "quantifier": "all expressions, labels, orders with start < stop, epsilon other than zero and values of derivatives", "why_tests_cant": "Tests recombine the equations of single methods with the default orders.", "anchors": ["src/lbmpy/chapman_enskog/derivative.py:6-23", "src/lbmpy/chapman_enskog/chapman_enskog.py:86-90"]}
{"id": "C126", "title": "Counts of the moment equality table", "statement": "moment_equality_table shows each descending exponent tuple up to the maximal order exactly once, in the row of its order and with the colour of its comparison. The printed total is the number of all exponent tuples up to that order; the numbers of matched and non matched moments are those of the tuples that agree and do not agree, provided the comparison does not depend on the order of the exponents. For an equilibrium given by the caller that is not symmetric the numbers are wrong.", "quantifier": "all dimensions, maximal orders and comparisons", "why_tests_cant": "The table is for display in notebooks and not tested; sums of multinomial coefficients over all orders cannot be sampled.", "anchors": ["src/lbmpy/moments.py:629-700"]}
{"id": "C127", "title": "Masks of velocity and density slices", "statement": "_get_slice masks each component of a vector in a slice with two or three axes like its cell, although it repeats the mask along the third axis in both cases; arrays without components are masked cell by cell. Components of a slice with one axis cannot be masked (an error), arrays with more axes of components are rejected by the assertion. density_slice with a density_data_index needs a slice, its default None is a TypeError.", "quantifier": "all shapes, numbers of components and masks", "why_tests_cant": "Tests read slices of two-dimensional domains; the result in three dimensions depends on the reshaping of masks by numpy.", "anchors": ["src/lbmpy/lbstep.py:228-250"]}
{"id": "C128", "title": "Boundaries from images", "statement": "add_black_and_white_image zooms the image to exactly the size of the target region; with keep_aspect_ratio the image is never larger than the region and fills it along one axis. It is centred up to one cell with nothing set around it. Each cell of the region gets the pixel at its place in the region in every block that contains it, so the boundary does not depend on the division into blocks, and nothing is set outside the region. The order of the two axes in plane is ignored by the mask.", "quantifier": "all sizes of image and region, all images, blocks, planes and cells", "why_tests_cant": "Tests set one image on one block of a fixed size.", "anchors": ["src/lbmpy/geometry.py:193-261"]}
{"id": "C129", "title": "The form for lattice parameters", "statement": "In the ScalingWidget the change listeners, which call each other, come to an end after at most four nested calls; they keep the parameter that is fixed in the chosen scaling and make relaxation rate, time step and lattice velocity consistent with viscosity, velocity and cell size. Every sequence of sensible inputs that leaves the velocity alone keeps the form consistent, switching the scaling changes no number, and the values agree with Scaling.diffusive_scaling. A change of the velocity is not passed on: the form is inconsistent after it.", "quantifier": "all positive values of the fields, all sequences of inputs", "why_tests_cant": "The widget has no tests; the result depends on the order of nested notifications.", "anchors": ["src/lbmpy/parameterization.py:11-153"]}
{"id": "C13", "title": "Every predefined stencil is a proper velocity set and its orderings agree", "statement": "Each predefined stencil/ordering has the advertised number of pairwise different velocities of the advertised dimension, contains the rest velocity, contains with every velocity its reverse, and all orderings of one stencil are permutations of each other; inverse_index is an involution.", "quantifier": "all predefined stencils and orderings; for inverse_index every inverse-closed stencil", "why_tests_cant": "Table plus a law for every user supplied stencil.", "anchors": ["src/lbmpy/stencils.py:LBStencil,_predefined_stencils"]}
{"id": "C130", "title": "Drops between two phases", "statement": "liquid_lens_setup and create_two_drops_between_phases leave exactly one phase in each cell of the domain, whatever was there before: a drop in its rectangle, else the first phase in the upper and the second in the lower half. The rectangles of two drops are disjoint. A drop touches both phases exactly with 3 or at least 5 rows, and the drop of the lens is centred up to one cell. The two drops differ in width by a factor of about two.", "quantifier": "all domain sizes, cells and previous values", "why_tests_cant": "The scenarios are run for one domain size; rounding of fractions of odd sizes is not visible there.", "anchors": ["src/lbmpy/phasefield/experiments2D.py:41-97"]}
{"id": "C131", "title": "Inserting subexpressions", "statement": "insert_pure_products, insert_conserved_quantity_products and insert_half_force never change the values of the main assignments of a collision rule and keep its subexpressions in a valid order. Afterwards no chosen subexpression is left except for the skipped ones, also none that became eligible by the insertion of another. Only numbers times products of the given symbols are inserted as pure products; squares of a symbol are not. insert_conserved_quantity_products ignores the argument skip.", "quantifier": "all collections of assignments in valid order, all choices, all values of the symbols", "why_tests_cant": "Tests compare the values of a few methods at one point; the choice of subexpressions depends on the form of each expression.", "anchors": ["src/lbmpy/methods/momentbased/momentbasedsimplifications.py:323-360"]}
{"id": "C14", "title": "Stencil construction rejects malformed velocity sets; equality and hashing", "statement": "Constructing a stencil from velocities with repeated entries or of different lengths raises ValueError, every accepted one has pairwise distinct entries. Stencils that compare equal must have equal hashes (relied on by caching).", "quantifier": "all sequences of integer tuples", "why_tests_cant": "All user-supplied sequences.", "anchors": ["src/lbmpy/stencils.py:LBStencil.__init__,__eq__,__hash__"]}
{"id": "C15", "title": "Moment enumerations are complete and free of duplicates", "statement": "moments_of_order(n, dim) lists every exponent tuple of the given dimension whose entries sum to n exactly once (or one sorted representative per permutation class when permutations are excluded); moments_up_to_order / moments_up_to_component_order likewise; the number of permutations of a moment equals its multiplicity.", "quantifier": "every order, dimension, exponent tuple", "why_tests_cant": "Unbounded orders and dimensions.", "anchors": ["src/lbmpy/moments.py:moments_of_order,moments_up_to_order,moments_up_to_component_order,moment_permutations,moment_multiplicity,__fixed_sum_tuples,__unique_permutations"]}
{"id": "C16", "title": "Permutation representatives lose nothing", "statement": "pick_representative_moments keeps one member per permutation class, and extending the picked ones with permutations recovers a set containing the original moments.", "quantifier": "every collection of exponent tuples", "why_tests_cant": "All sets of moments.", "anchors": ["src/lbmpy/moments.py:pick_representative_moments,extend_moments_with_permutations,moment_permutations"]}
{"id": "C17", "title": "Aliasing on first-neighbourhood stencils is value preserving", "statement": "Replacing an exponent tuple by its non-aliased representative does not change the discrete moment of any populations on any stencil with entries in {-1,0,1}, is idempotent and gives exponents at most 2; the alias map only relates moments with equal discrete values.", "quantifier": "every exponent tuple, stencil with entries in {-1,0,1}, population vector", "why_tests_cant": "Unbounded exponents.", "anchors": ["src/lbmpy/moments.py:non_aliased_moment,aliases_from_moment_list,discrete_moment"]}
{"id": "C18", "title": "Gram-Schmidt returns an orthogonal basis of the same span or reports dependence", "statement": "gram_schmidt returns, in order, pairwise (weighted-)orthogonal moments, each equal to the input moment minus a linear combination of earlier ones; linearly dependent input raises ValueError.", "quantifier": "every list of moment vectors, every positive weight vector", "why_tests_cant": "All inputs.", "anchors": ["src/lbmpy/moments.py:gram_schmidt"]}
{"id": "C19", "title": "Moment-space collision is well defined and conserves what has rate zero or matching equilibrium", "statement": "The collision f + M^-1 D (m_eq - M f) changes every moment m_i exactly to m_i + d_i (m_eq_i - m_i); a moment whose rate is zero or whose equilibrium equals its current value is conserved; equal rates make the result independent of the moment basis (SRT); setting all rates to one gives the equilibrium.", "quantifier": "every invertible moment matrix, relaxation rates, equilibrium moments, populations", "why_tests_cant": "All matrices, rates, states.", "anchors": ["src/lbmpy/methods/momentbased/momentbasedmethod.py:_collision_rule_with_relaxation_matrix,get_equilibrium,collision_matrix"]}
{"id": "C20", "title": "Discrete equilibrium reproduces density and momentum", "statement": "The discrete equilibrium of each standard stencil has zeroth moment rho, first moments rho*u (compressible) or u scaled by the background density (incompressible), and second moments rho*(cs^2 delta + u u) for order >= 2; weights are positive-sum one, symmetric and isotropic to fourth order.", "quantifier": "every density, velocity, sound speed weight set of the predefined stencils D2Q9, D3Q15, D3Q19, D3Q27, D3Q7; orders 1..3", "why_tests_cant": "Holds for all densities and velocities; rounding-free identity over a field.", "anchors": ["src/lbmpy/maxwellian_equilibrium.py:get_weights,discrete_equilibrium"]}
{"id": "C21", "title": "Setting macroscopic values and reading them back is the identity", "statement": "Initialising populations to equilibrium for (rho, u) under a force model and then computing density and velocity from the populations returns (rho, u), for compressible and incompressible, zero-centred and absolute storage.", "quantifier": "all densities (nonzero when compressible), velocities, forces, storage formats, standard stencils", "why_tests_cant": "Continuous parameters, all combinations.", "anchors": ["src/lbmpy/methods/conservedquantitycomputation.py:DensityVelocityComputation", "src/lbmpy/macroscopic_value_kernels.py:macroscopic_values_setter,macroscopic_values_getter"]}
{"id": "C22", "title": "Generated density/velocity equations equal the defining sums", "statement": "The term-sharing equations generated for density and momentum (with common subexpressions over directions) evaluate to sum f_i and sum c_i f_i for every population vector.", "quantifier": "every stencil with entries, every population vector, any coordinate", "why_tests_cant": "All population vectors, user stencils.", "anchors": ["src/lbmpy/methods/conservedquantitycomputation.py:get_equations_for_zeroth_and_first_order_moment"]}
{"id": "C23", "title": "Force models inject exactly the force", "statement": "For every force model the force term adds no mass and adds exactly the momentum its definition promises (F for Simple/Luo/Buick base terms; (1-omega/2) F for Guo, complemented by the F/2 velocity shift), for every velocity.", "quantifier": "every stencil with standard weights, velocity, force vector, relaxation rate", "why_tests_cant": "Continuous parameters.", "anchors": ["src/lbmpy/forcemodels.py:Simple,Luo,Guo,Schiller,Buick,EDM,ShanChen,He,default_velocity_shift"]}
{"id": "C24", "title": "Viscosity / relaxation-rate conversions are mutually inverse and stability-range preserving", "statement": "relaxation_rate_from_lattice_viscosity and lattice_viscosity_from_relaxation_rate are inverse bijections between (0,inf) and (0,2); the odd rate from a magic number realises exactly that magic number and lies in (0,2); rate scaling across refinement levels composes, and keeps the range.", "quantifier": "all viscosities > 0, rates in (0,2), magic numbers > 0, refinement levels", "why_tests_cant": "Continuum of parameters.", "anchors": ["src/lbmpy/relaxationrates.py"]}
{"id": "C25", "title": "The three physical scalings are mutually consistent", "statement": "For fixed physical parameters, the (rate, dt, lattice velocity) triples from fixed_lattice_velocity, diffusive and acoustic scaling agree when chained, and lattice Reynolds number equals physical Reynolds number; after any sequence of property updates the stored Reynolds number is the one of the current parameters.", "quantifier": "all positive physical parameters, all update histories", "why_tests_cant": "Continuum and histories.", "anchors": ["src/lbmpy/parameterization.py:Scaling,reynolds_number"]}
{"id": "C26", "title": "Running statistics equal batch statistics", "statement": "After any sequence of samples the Welford update's mean equals the arithmetic mean and its accumulated sums of squares / cubes equal the centred sums over all samples.", "quantifier": "every finite history of vector samples over a field of characteristic zero", "why_tests_cant": "Every history.", "anchors": ["src/lbmpy/flow_statistics.py:welford_assignments"]}
{"id": "C27", "title": "Partially saturated cells balance mass and momentum with the particles", "statement": "The PSM solid collision terms of SC=1 and SC=3 conserve cell mass; the force written for particle p is exactly minus the momentum its solid collision adds to the fluid, so the sum over particles balances the total; unknown SC raises.", "quantifier": "every stencil, fraction, population vector, equilibria, particle count", "why_tests_cant": "Continuum of states, any number of particles.", "anchors": ["src/lbmpy/partially_saturated_cells.py:add_psm_to_collision_rule"]}
{"id": "C28", "title": "Turbulence and rheology models stay in the stable range", "statement": "The Smagorinsky rate never exceeds the molecular rate, stays in (0,2), and solves the defining quadratic for the total relaxation time; the Casson rate stays in the clipping interval.", "quantifier": "all nonnegative stress norms, model constants and molecular rates in (0,2)", "why_tests_cant": "Continuum of states.", "anchors": ["src/lbmpy/turbulence_models.py:add_smagorinsky_model", "src/lbmpy/non_newtonian_models.py:add_cassons_model"]}
{"id": "C29", "title": "Interpolated bounce back: consistency and exactness", "statement": "Linear Bouzidi bounce back equals no-slip for q=1/2 and for missing wall distance, is continuous at q=1/2, is a convex combination (hence keeps populations non-negative) for 0<q<=1; quadratic bounce back with default wall distance and matching data reduces consistently.", "quantifier": "all wall distances q, population values", "why_tests_cant": "Continuum of wall distances.", "anchors": ["src/lbmpy/boundaries/boundaryconditions.py:NoSlipLinearBouzidi,QuadraticBounceBack"]}
{"id": "C30", "title": "Velocity bounce-back moves exactly the wall momentum and no net mass for tangential or global walls", "statement": "UBB equals no-slip for zero wall velocity; the correction is odd in the direction so that a link and its reverse cancel; the wall's total mass flux over a full stencil is zero and the momentum exchange has the documented form.", "quantifier": "all wall velocities, stencils with symmetric weights, densities", "why_tests_cant": "Continuum.", "anchors": ["src/lbmpy/boundaries/boundaryconditions.py:UBB"]}
{"id": "C31", "title": "Outflow boundary reads the history it claims", "statement": "The extrapolation outflow, over any number of steps, feeds back the linear interpolation of the two most recent recorded populations; the recorded values after each step are those of the previous step and the interpolated one.", "quantifier": "every step history", "why_tests_cant": "All histories.", "anchors": ["src/lbmpy/boundaries/boundaryconditions.py:ExtrapolationOutflow,SimpleExtrapolationOutflow"]}
{"id": "C32", "title": "Sparse (list-based) LB is the dense LB", "statement": "The index list of the sparse mapper addresses for each fluid cell and direction the slot of the upstream cell (or the own reversed direction at no-slip, or the wrapped cell at periodic borders), cell numbering and coordinate lookup are mutually inverse, and a sparse step equals the dense step.", "quantifier": "every flag array, stencil, domain size", "why_tests_cant": "All geometries.", "anchors": ["src/lbmpy/sparse/mapping.py:SparseLbMapper", "src/lbmpy/sparse/update_rule_sparse.py"]}
{"id": "C33", "title": "Relaxation-rate lists are distributed as documented", "statement": "Given one rate: conserved moments get 0 (or the rate, when not conserved), shear moments the rate, others 1. Given as many rates as moments: used in order. Otherwise: shear, bulk, then one per group; too few raises ValueError. Every moment gets a rate.", "quantifier": "every nested moment list, rate list, dimension", "why_tests_cant": "All nestings and list lengths.", "anchors": ["src/lbmpy/methods/creationfunctions.py:_get_relaxation_info_dict"]}
{"id": "C34", "title": "Symbolic relaxation matrix substitution preserves values", "statement": "Replacing numeric relaxation rates by shared symbols and substituting the recorded values back gives the original rates, equal numbers share one symbol, different ones get different symbols, user symbols are untouched.", "quantifier": "every rate list", "why_tests_cant": "All rate lists.", "anchors": ["src/lbmpy/methods/abstractlbmethod.py:_generate_symbolic_relaxation_matrix,subs_dict_relaxation_rate"]}
{"id": "C35", "title": "Chimera transforms equal the defining moment sums and are inverted by the backward transform", "statement": "The nested chimera summation yields exactly the monomial raw moment of every requested exponent; the binomial chimera yields central moments, the same routine with the opposite velocity is its inverse.", "quantifier": "every stencil with entries in {-1,0,1}, exponent tuple, dimension, velocity, populations", "why_tests_cant": "Unbounded exponents/dimension.", "anchors": ["src/lbmpy/moment_transforms/rawmomenttransforms.py:PdfsToMomentsByChimeraTransform.forward_transform", "src/lbmpy/moment_transforms/centralmomenttransforms.py:BinomialChimeraTransform.BinomialChimera"]}
{"id": "C36", "title": "Zero-centred storage is an exact change of variables", "statement": "A simulation storing deviations from the background and one storing absolute populations with the same parameters stay equal up to adding the lattice weights after any number of steps.", "quantifier": "every moment basis, rates, equilibrium, weights, history length", "why_tests_cant": "All histories.", "anchors": ["src/lbmpy/methods/momentbased/momentbasedmethod.py:_collision_rule_with_relaxation_matrix", "src/lbmpy/moment_transforms/rawmomenttransforms.py:_rm_background_shift"]}
{"id": "C37", "title": "Symmetric splitting of post-collision equations preserves values", "statement": "Rewriting opposing directions' update equations into symmetric and antisymmetric parts leaves the value assigned to every population unchanged.", "quantifier": "every inverse-closed stencil, every assignment values", "why_tests_cant": "All expressions.", "anchors": ["src/lbmpy/methods/momentbased/momentbasedsimplifications.py:split_pdf_main_assignments_by_symmetry"]}
{"id": "C38", "title": "TRT with equal rates is SRT; even and odd parts decouple", "statement": "TRT relaxes the symmetric part of each direction pair with the even rate and the antisymmetric part with the odd rate; both rates equal gives SRT.", "quantifier": "every inverse-closed stencil, complete moment set split by parity, populations, rates", "why_tests_cant": "All states and rates.", "anchors": ["src/lbmpy/methods/creationfunctions.py:create_trt,create_srt", "src/lbmpy/moments.py:is_even"]}
{"id": "C39", "title": "Cumulant and moment conversions are mutually inverse", "statement": "Expressing cumulants by moments (logarithm / set-partition formula) and moments by cumulants (exponential) are inverse to each other for every index, given a positive zeroth moment.", "quantifier": "every index tuple (any dimension/order), every moment family with positive density", "why_tests_cant": "Unbounded indices; partition combinatorics.", "anchors": ["src/lbmpy/cumulants.py:__cumulant_raw_moment_transform,__partition"]}
{"id": "C40", "title": "Boundary-handling call protocol: the right kernel for the right timestep", "statement": "Each call of the boundary handling runs the kernel generated for the given previous timestep, the timestep marker is reset afterwards, and access outside a call raises.", "quantifier": "every sequence of calls", "why_tests_cant": "All call histories.", "anchors": ["src/lbmpy/boundaries/boundaryhandling.py:LatticeBoltzmannBoundaryHandling"]}
{"id": "C41", "title": "run() equals repeated time_step()", "statement": "Executing n steps through the two-step fixed time loop gives the same state as calling time_step n times, for odd and even n, for both time step orders.", "quantifier": "every n, every initial state, any history of run calls", "why_tests_cant": "All n and histories of calls.", "anchors": ["src/lbmpy/lbstep.py:LatticeBoltzmannStep.run,get_time_loop,time_step,run_old"]}
{"id": "C42", "title": "Iterative initialization terminates with a converged field or an error", "statement": "run_iterative_initialization runs at most max_steps steps (in chunks of check_residuum_after), returns only when the last residuum is below the threshold, otherwise restores the prescribed velocity and raises.", "quantifier": "every residuum sequence and parameters", "why_tests_cant": "All residuum histories.", "anchors": ["src/lbmpy/lbstep.py:LatticeBoltzmannStep.run_iterative_initialization"]}
{"id": "C43", "title": "Reported wall force is the fluid's momentum loss", "statement": "In a closed no-slip domain with a momentum conserving collision, the momentum the fluid loses in a time step equals exactly the force reported for the walls between the steps, for every streaming pattern.", "quantifier": "every stencil, pattern, finite fluid domain, collision operator conserving momentum, step", "why_tests_cant": "All domains and states.", "anchors": ["src/lbmpy/boundaries/boundaryhandling.py:LatticeBoltzmannBoundaryHandling.force_on_boundary,_force_on_no_slip"]}
{"id": "C44", "title": "A free-slip channel conserves mass and tangential momentum", "statement": "In a channel (domain invariant under shifts orthogonal to one axis) with free-slip walls and automatic normal detection, total mass and all tangential momentum components are constant over any number of steps of any streaming pattern.", "quantifier": "every stencil, pattern, channel, conserving collision operator, number of steps", "why_tests_cant": "All channels, states and histories.", "anchors": ["src/lbmpy/boundaries/boundaryconditions.py:FreeSlip", "src/lbmpy/boundaries/boundaryhandling.py"]}
{"id": "C45", "title": "Anti-bounce-back boundaries keep the equilibrium they prescribe", "statement": "FixedDensity and DiffusionDirichlet hand back the equilibrium population of the reversed direction when the cell is in equilibrium with the prescribed density / concentration (with and without velocity).", "quantifier": "every stencil, weights, density/concentration, velocity", "why_tests_cant": "All values.", "anchors": ["src/lbmpy/boundaries/boundaryconditions.py:FixedDensity,DiffusionDirichlet"]}
{"id": "C46", "title": "Index and exponent representations of moments are inverse to each other", "statement": "get_moment_indices and get_exponent_tuple_from_indices are mutually inverse (indices up to order), an index outside the dimension is an error; contained_moments lists exactly the componentwise smaller tuples of sufficient order; is_even holds exactly for monomials unchanged under reversal of all signs.", "quantifier": "every exponent tuple, index list, dimension, minimum order", "why_tests_cant": "All tuples of all lengths.", "anchors": ["src/lbmpy/moments.py:get_moment_indices,get_exponent_tuple_from_indices,contained_moments,is_even"]}
{"id": "C47", "title": "Every offered moment set is a basis, orthogonal where it says so", "statement": "Each default moment set, each cascaded set and each set of orthogonal modes offered for a predefined stencil (any ordering) has as many moments as velocities and determines the populations uniquely for all moment values; the orthogonal modes are pairwise orthogonal for the lattice weights (weighted) or unit weights; the cascaded groups come in the documented order density, momentum, shear, bulk, rest; expanding polynomials does not change their value.", "quantifier": "every predefined stencil and ordering, every field of characteristic 0, all moment values", "why_tests_cant": "All moment values; the finite table of sets is checked completely.", "anchors": ["src/lbmpy/moments.py:get_default_moment_set_for_stencil", "src/lbmpy/methods/default_moment_sets.py:cascaded_moment_sets_literature,mrt_orthogonal_modes_literature"]}
{"id": "C48", "title": "Bulk and shear moments are classified correctly", "statement": "is_bulk_moment accepts exactly the polynomials of order two that are a non-zero multiple of x^2+y^2+z^2 up to lower order terms; is_shear_moment accepts exactly the other polynomials of order two.", "quantifier": "every polynomial with any coefficients, dimension", "why_tests_cant": "All polynomials.", "anchors": ["src/lbmpy/moments.py:is_bulk_moment,is_shear_moment"]}
{"id": "C49", "title": "Statistical modes of the continuous Maxwellian are its integrals", "statement": "Moments and central moments computed by differentiating the generating function equal the integrals of the (shifted) monomials or polynomials against the Maxwellian; cumulants are log(rho), u, c_s^2 on the pure second-order indices and 0 otherwise. ContinuousHydrodynamicMaxwellian computes the moments and central moments (any frame of reference) of its continuous equation in all four variants, truncation drops exactly the terms of higher order in the velocity, moments up to the truncation order are exact, central moments in the moving frame do not depend on it, mass and momentum have the documented values, the deviation form is the absolute form minus the background, and cumulants are refused for the other variants.", "quantifier": "every dimension, exponent tuple or polynomial, density, velocity, positive c_s^2, truncation order, frame of reference", "why_tests_cant": "Integrals over R^D for all exponents; tests check a few low moments symbolically.", "anchors": ["src/lbmpy/continuous_distribution_measures.py:moment_generating_function,central_moment_generating_function,cumulant_generating_function,multi_differentiation,continuous_moment", "src/lbmpy/maxwellian_equilibrium.py:continuous_maxwellian_equilibrium,get_equilibrium_values_of_maxwell_boltzmann_function", "src/lbmpy/equilibrium/continuous_hydro_maxwellian.py:ContinuousHydrodynamicMaxwellian"]}
{"id": "C50", "title": "Populations from matching moments", "statement": "discrete_equilibrium_from_matching_moments returns populations exactly if there are as many moments as velocities and the moments determine the populations; the result is then the only set of populations with the prescribed moments. Matching the continuous Maxwellian on a stencil with all velocities in {-1,0,1}^D gives the product of one-dimensional equilibria, and on D2Q9 and D3Q27 its terms up to third order in the velocity are the third-order discrete Maxwellian. On every stencil with weights except D3Q7, the moments up to third order of the second-order discrete Maxwellian are those of the continuous one without the terms of third order in the velocity.", "quantifier": "every stencil, every list of constraints, every density and velocity; all orderings of the predefined stencils", "why_tests_cant": "The test suite compares symbolic expressions for four stencils and one ordering; existence, uniqueness and the product form hold for all dimensions.", "anchors": ["src/lbmpy/maxwellian_equilibrium.py:generate_equilibrium_by_matching_moments,discrete_maxwellian_equilibrium", "src/lbmpy/equilibrium/generic_discrete_equilibrium.py:discrete_equilibrium_from_matching_moments", "src/lbmpy/moments.py:moment_matrix"]}
{"id": "C51", "title": "Transformation between central moments and cumulants", "statement": "The transformation of the cumulant methods computes, from the central moments of populations about any velocity, density times the derivatives of the logarithm of their generating function, so the cumulants do not depend on the velocity. Forward and backward transformation are inverse to each other, also for polynomial cumulants whenever the constructor accepts them. Up to third order cumulants are the central moments, in order four and five products of lower ones are subtracted. The equations contain only quantities of componentwise smaller or equal index; the constructor accepts a set only if it is closed under smaller indices.", "quantifier": "every dimension and index, all values of central moments (positive density) and cumulants, every list of polynomials", "why_tests_cant": "Tests compare forward and backward transformation symbolically for a few stencils and take minutes; independence of the velocity and the partition formula for all indices cannot be sampled.", "anchors": ["src/lbmpy/moment_transforms/cumulanttransforms.py:CentralMomentsToCumulantsByGeneratingFunc", "src/lbmpy/moments.py:extract_monomials,monomial_to_polynomial_transformation_matrix"]}
{"id": "C52", "title": "Shift to central moments", "statement": "Whenever set_up_shift_matrix succeeds, its matrix turns the raw moments of any populations into their central moments about any velocity. For the default and cascaded moment sets of every predefined stencil, in any order of non-decreasing degree, it succeeds, the matrix is lower triangular with unit diagonal, and the matrix transform to central moments and back is defined and the identity for every velocity. The reduced monomial-to-polynomial matrix gives the polynomial central moments from those of the reduced monomials. The assertions alone do not imply a unit diagonal (there are accepted sets whose matrix is singular for some velocity).", "quantifier": "all moment sets, populations and velocities; all offered sets, stencils and orderings", "why_tests_cant": "The entries are rational functions of the velocity; tests invert a few matrices symbolically or sample velocities, singular velocities and other orders of the moments are not seen.", "anchors": ["src/lbmpy/moments.py:set_up_shift_matrix,moment_matrix,central_moment_reduced_monomial_to_polynomial_matrix", "src/lbmpy/moment_transforms/centralmomenttransforms.py:PdfsToCentralMomentsByMatrix"]}
{"id": "C53", "title": "Collision in central moment space", "statement": "One collision relaxes every central moment about the fluid velocity, plus the background of the storage format, towards its equilibrium with its own rate and adds the force. Zero rates change nothing, get_equilibrium has the equilibrium moments, with one common rate the result is f + omega (feq - f) and the same as in raw moment space, zero-centred storage commutes with the collision. Mass and momentum are conserved for all rates; with the force models that shift their terms, adding them in central moment space is adding them to the populations, mass is unchanged and momentum grows by the force, for Guo-type models with the shifted velocity for all rates.", "quantifier": "all populations, rates, equilibria, force terms; all offered moment sets on all stencils", "why_tests_cant": "Tests compare single time steps of a few methods numerically; conservation for independent rates of all moments and the forcing identities are statements about all states.", "anchors": ["src/lbmpy/methods/momentbased/centralmomentbasedmethod.py:CentralMomentBasedLbMethod,relax_central_moments", "src/lbmpy/forcemodels.py:central_moment_space_forcing"]}
{"id": "C54", "title": "Collision in cumulant space", "statement": "One collision of a cumulant-based method relaxes every polynomial in the cumulants of the populations (derivatives of the logarithm of their generating function) towards its equilibrium value with its own rate, keeps the density positive, does nothing for zero rates, and yields populations with the equilibrium cumulants for unit rates. With the cumulants of the continuous Maxwellian as equilibrium these are exactly the populations whose central moments are those of the Maxwellian. Mass and momentum are conserved for all rates; every accepted force model leaves mass unchanged and adds exactly the force to the momentum; force models without symmetric forcing are refused. Zero-centred storage commutes with the collision. The list of central moments starts with those of order 0 and 1 in the order of the variables, on which the forcing relies. On every predefined stencil except D3Q15 the default and cascaded sets have a collision rule for all rates.", "quantifier": "all populations with positive density, rates, equilibria, forces; all offered cumulant sets on all stencils", "why_tests_cant": "The collision involves logarithms, exponentials and sums over set partitions of the state; tests run a few states and rates numerically and cannot show conservation for independent rates of all cumulants.", "anchors": ["src/lbmpy/methods/cumulantbased/cumulantbasedmethod.py:CumulantBasedLbMethod,_centered_cumulant_collision_rule", "src/lbmpy/moment_transforms/cumulanttransforms.py", "src/lbmpy/forcemodels.py:symmetric_central_moment_forcing"]}
{"id": "C55", "title": "Corrections of the cumulant method are covariant and conservative", "statement": "The Galilean correction and the fourth-order correction of the D3Q27 cumulant method do not depend on the naming of the axes: permuting the axes of the state permutes the corrections of the monomial cumulants. The Galilean correction vanishes at rest and for the equilibrium second-order cumulants and ignores the direction of the velocity. With any of the corrections and with relaxation rates that depend on the state, mass and momentum are conserved. Limited relaxation rates lie between the unlimited rate and 1. With bulk rate 1 the optimal rates are in (0, 2) for a shear rate in (7/4, 2). Both functions raise ValueError exactly for other methods, other stencils and missing polynomials.", "quantifier": "all states, rates, corrections; all polynomial sets for the exceptions", "why_tests_cant": "Tests of the corrections run one decaying shear wave or check that code is generated; an exchanged axis in one of six terms is invisible there.", "anchors": ["src/lbmpy/methods/cumulantbased/galilean_correction.py:add_galilean_correction,get_galilean_correction_terms", "src/lbmpy/methods/cumulantbased/fourth_order_correction.py:add_fourth_order_correction,get_fourth_order_correction_terms,get_optimal_additional_parameters,get_optimal_parametrisation_with_limiters"]}
{"id": "C56", "title": "A configuration means what its parameters say, and updating it is the same as writing it anew", "statement": "The configuration dataclass accepts exactly the consistent combinations of parameters: compressible cumulant methods, entropic methods that are not zero-centred, delta equilibria that are zero-centred and not cumulant-based, collision spaces that suit the method, and known force models. The derived parameters (relaxation rates, delta equilibrium, collision space, force model, streaming pattern, conserved moments) follow from the given ones by one rule each. Constructing a configuration from an accepted configuration gives the same configuration. Replacing parameters of a configuration gives the configuration that would be made from the changed parameters. The method gets the rates of the configuration; at most one of the entropic, subgrid-scale and Cassons models is applied, in a fixed order of additions; the kernel has the streaming pattern of the configuration.", "quantifier": "all parameters (methods, rates, forces, force models, collision spaces, flags, kernel types), all changes, all options of the collision rule", "why_tests_cant": "there are ten methods, four spaces, eleven force models and many flags; the interplay of defaults on the second construction, which every creation function performs, is never looked at", "anchors": ["src/lbmpy/creationfunctions.py:347-484", "src/lbmpy/creationfunctions.py:620-635", "src/lbmpy/creationfunctions.py:642-770", "src/lbmpy/creationfunctions.py:773-868", "src/lbmpy/creationfunctions.py:920-971", "src/lbmpy/enums.py:42-223"]}
{"id": "C57", "title": "Wall functions give the stress of the fluid at the wall, and the boundary hands exactly this stress to the fluid", "statement": "The friction velocity computed by an implicit wall law is a solution of the law: the law has one positive solution, the Newton iteration converges to it and cannot fail; the explicit law solves its profile equation. The wall stress points against the tangential velocity and has the magnitude given by the law. The wall function bounce reflects the populations specularly and adds to the fluid, summed over the links of a cell, exactly the momentum of the stress in the tangential directions, no momentum in the normal direction and no mass. The velocity that enters the law is the velocity at the distance from the wall that enters the law.", "quantifier": "all velocities, distances, viscosities, constants, start values and numbers of Newton steps; all orderings of D3Q19 and D3Q27, both kinds of weights, all walls, all streaming patterns, all populations", "why_tests_cant": "the only test asks whether the velocity of the first cell lies between the one with no slip and the one with free slip, for one moving initial state", "anchors": ["src/lbmpy/boundaries/wall_function_models.py:39-168", "src/lbmpy/boundaries/boundaryconditions.py:489-719"]}
{"id": "C58", "title": "The entropy condition chooses the free relaxation rate that maximises the entropy after the collision", "statement": "For a method with two relaxation rates, one of which is the shear rate, the entropy condition adds an equation for the other one. The rate so computed is, in every cell and for every value of the shear rate, the maximiser of the approximated entropy of the populations after the collision relative to the equilibrium; the explicit and the iterative procedure give the same rate on rules that both accept, whatever the number of iterations (at least one) and the initial value; mass and momentum are not changed by the choice. Rules that a procedure cannot treat are refused.", "quantifier": "all update rules given by the polynomials of their update expressions in the two rates, all populations with positive equilibrium, all shear rates, all initial values and iteration numbers", "why_tests_cant": "the tests run one shear wave or Taylor-Green vortex and look at the viscosity; they do not look at the chosen rate and never at a maximum", "anchors": ["src/lbmpy/methods/momentbased/entropic.py:9-87", "src/lbmpy/methods/momentbased/entropic.py:90-190", "src/lbmpy/methods/momentbased/entropic.py:199-216", "src/lbmpy/methods/momentbased/entropic.py:219-297"]}
{"id": "C59", "title": "Thermal fluctuations conserve mass and momentum and balance the dissipation of the collision", "statement": "Fluctuations are added to a collision rule of a weighted-orthogonal method when either a temperature or amplitudes are given, and refused otherwise. They change neither mass nor momentum of a cell; every other moment gets its own random number, with mean zero and variance one, times its amplitude. The amplitudes are such that the thermal state (uncorrelated populations of variance T rho w / c_s^2 in all cells) is stationary under collision with any relaxation rates: what the relaxation takes from the fluctuations of a moment the noise gives back.", "quantifier": "all velocity sets and weighted-orthogonal moment sets, all relaxation rates, temperatures, populations and random numbers; all probability spaces", "why_tests_cant": "the tests compare the measured temperature of one simulation with tolerance of several percent, and the number of random numbers used", "anchors": ["src/lbmpy/fluctuatinglb.py:16-63", "src/lbmpy/methods/momentbased/momentbasedmethod.py:236-241"]}
{"id": "C60", "title": "Forces of the Allen-Cahn two-phase model hold a planar interface in balance and vanish in the bulk", "statement": "The parameters called surface tension and interface thickness are what they are called: the tanh profile of that thickness has zero chemical potential, its free energy per area is the surface tension, and on it the interface tracking force is one third of the gradient, so the profile is stationary. Away from interfaces no force is left but the body force; with equal densities pressure and viscous force vanish; the thermocapillary force is tangential and adds up to the Marangoni stress. Rates belong to the linearly interpolated viscosity and to the mobility. The viscous force is the viscous stress against the density gradient. Sub-iterations evaluate the force at the iterated velocity; the initialisation gives the populations the wanted velocity.", "quantifier": "all surface tensions, widths, normals, positions, gradients, populations, equilibria, temperatures, numbers of sub-iterations", "why_tests_cant": "the profile and the energies are statements about a continuum of positions and all parameters; simulations show them only up to discretisation errors, which hide a missing factor", "anchors": ["src/lbmpy/phasefield_allen_cahn/kernel_equations.py:19-239", "src/lbmpy/phasefield_allen_cahn/kernel_equations.py:242-300", "src/lbmpy/phasefield_allen_cahn/kernel_equations.py:376-419", "src/lbmpy/phasefield_allen_cahn/parameter_calculation.py:5-100", "src/lbmpy/phasefield_allen_cahn/parameter_calculation.py:147-205"]}
{"id": "C61", "title": "The contact angle boundary imposes its wetting condition and keeps the phase field between the phases", "statement": "The value written into the boundary cell is such that the wall value halfway between boundary and fluid cell has the slope -(4/W) cos(angle) w (1-w), which is the slope of a planar interface that meets the wall at that angle. If the interface is at least twice as wide as the link is long, values between the bulk phases stay between them, bulk phases are kept, and angles below (above) 90 degrees raise (lower) the value. Exchanging phases and angle to 180 degrees minus angle is a symmetry. Fields with index dimensions are refused.", "quantifier": "all angles, interface widths, links, phase field values", "why_tests_cant": "the branch of the square root, small parameters and steep links need all angles, widths and values; a test run shows one angle after many steps", "anchors": ["src/lbmpy/phasefield_allen_cahn/contact_angle.py:34-62"]}
{"id": "C62", "title": "Parameter functions of two-phase benchmarks realise the dimensionless numbers they are given", "statement": "The parameters computed for the Rayleigh-Taylor instability, the rising bubble, the Taylor bubble and the droplet migration have the Reynolds, capillary, Peclet, Bond, inverse viscosity and Marangoni numbers, the ratios of densities, viscosities and conductivities, the Atwood number and the reference time that were given; positive arguments always give parameters, all positive.", "quantifier": "all arguments of the four functions", "why_tests_cant": "the numbers are relations between all parameters; tests compare a few printed values for the default arguments", "anchors": ["src/lbmpy/phasefield_allen_cahn/parameter_calculation.py:226-435"]}
{"id": "C63", "title": "Free energies of the multi-phase model give every pair of phases its surface tension and an interface in equilibrium", "statement": "The free energy of N phases, written in N-1 order parameters, does not depend on which phase is eliminated nor on their numbering. Along the analytic interface profile between any two phases all chemical potentials vanish, those of absent phases included, and the free energy integrated across it is the given surface tension of the two (for the three phase energy width*(kappa_i+kappa_j)/6, also in the transformed order parameters). Triple point terms do not act on two phases; the corrected bulk energy is the plain one in the admissible range and larger outside; the penalty vanishes exactly for compositions adding up to one; surface tensions of a phase with itself are refused; without a list of order parameters all of them get a potential.", "quantifier": "all numbers of phases, symmetric surface tensions, widths, compositions, gradients, positions, permutations of the phases", "why_tests_cant": "energies and potentials are statements about all compositions and a continuum of positions; a simulation shows a surface tension only up to discretisation errors and for one pair of phases", "anchors": ["src/lbmpy/phasefield/analytical.py:14-240"]}
{"id": "C64", "title": "Pressure tensor and chemical potentials give the same force", "statement": "The divergence of the pressure tensor computed from a free energy is the sum of concentration times gradient of the chemical potential, at every point and for all fields; the two ways of writing its interface part agree; it is symmetric; the coefficients extracted from the gradient terms are those of the energy and exactly energies that are not such a sum are refused; the force in square root form is that of the whole tensor up to the gradient of the ideal pressure; the linear index numbers the entries on and above the diagonal, each once.", "quantifier": "all numbers of phases, dimensions, bulk energies, coefficients, concentration fields (any commuting derivations)", "why_tests_cant": "the identity is between second and third derivatives of arbitrary fields; tests evaluate it for one energy", "anchors": ["src/lbmpy/phasefield/analytical.py:243-387"]}
{"id": "C65", "title": "Equations of state have the critical temperatures stated for them and the Maxwell construction returns coexisting densities", "statement": "The van der Waals pressure is the only solution of its equation; its isotherms rise with the density exactly above the critical temperature, with a horizontal inflection at it; the same for Carnahan-Starling. Free energy and equation of state are inverse to each other. The Maxwell construction bisects between shifts of opposite deviation, terminates, and what it returns are two densities of equal pressure whose areas differ by at most the tolerance.", "quantifier": "all parameters, temperatures, densities, free energies; all runs of the bisection", "why_tests_cant": "criticality is a statement about all densities, and the bisection may run for any number of steps; tests compare with published numbers to four digits", "anchors": ["src/lbmpy/phasefield/eos.py:8-104"]}
{"id": "C66", "title": "Lattice Boltzmann method for the Cahn-Hilliard equation transports the order parameter with the right flux and mobility", "statement": "On every predefined stencil with weights the equilibrium of cahn_hilliard_lb_method has the order parameter as zeroth, the advected order parameter as first and gamma*mu*delta_ab + phi v_a v_b as second moment. Collisions conserve the order parameter exactly for every chemical potential and velocity and relax its flux towards the advected one; with a chemical potential of constant gradient g the flux is -gamma(1/omega-1/2) g, which is the mobility of the Cahn-Hilliard equation. A relaxation rate may be any expression.", "quantifier": "all predefined stencils with weights, chemical potentials, mobilities, order parameters, velocities, relaxation rates, populations", "why_tests_cant": "conservation and the mobility are identities over all fields and parameters, runs check them for a few parameters up to rounding; the missing velocity products of one stencil do not show without flow", "anchors": ["src/lbmpy/phasefield/cahn_hilliard_lbm.py:10-48", "src/lbmpy/methods/creationfunctions.py:192-205"]}
{"id": "C67", "title": "N-phase model of Boyer and Minjeaud: diffusion coefficients, consistency and surface tensions", "statement": "For given pairwise surface tensions the diffusion coefficients are the unique symmetric matrix with zero row sums that decouples the phases; they are returned exactly if the surface tensions have a zero diagonal and the constrained minimisation is regular, and with them the sum of all phases is preserved and each interfacial potential is the Laplacian of its own phase. The bulk terms over subsets of phases are iterated differences: they vanish where a phase is absent and add up to the function of the total. The bulk energy for equal surface tensions does not depend on its free parameter and reduces to the double well on any two phases. The correction and stabilisation terms vanish where at most three resp. two phases are present, the derivatives given for their auxiliary function are its derivatives everywhere. The free energy agrees with that of the N-1 order parameter formulation, and integrated over the interface between any two phases it is their surface tension.", "quantifier": "all numbers of phases, surface tensions, compositions, gradients, interface widths, subset sizes, correction coefficients", "why_tests_cant": "consistency (reduction of n to n-1 phases) is a statement for all numbers of phases and compositions, the tests look at three or four phases symbolically for fixed tensions", "anchors": ["src/lbmpy/phasefield/n_phase_boyer.py:17-138", "src/lbmpy/phasefield/n_phase_boyer.py:160-250"]}
{"id": "C68", "title": "Chapman-Enskog analysis yields the Navier-Stokes equations with the viscosity of the relaxation rates, and reports it", "statement": "The taylored lattice Boltzmann equation is exact on polynomial fields; ordering it by powers of epsilon loses nothing. For every method that relaxes the traceless second moments with one rate and their trace with another, every solution of the hierarchy with an equilibrium of the right moments fulfils mass conservation and the momentum equation with pressure c_s^2 rho and the viscous stress of the rates, up to the cubic error that is stated exactly. get_dynamic_viscosity, get_kinematic_viscosity, get_bulk_viscosity and relaxation_rate_from_kinematic_viscosity return the viscosities of that stress, and does_approximate_navier_stokes returns only zero exactly if the stress is that of a Newtonian fluid.", "quantifier": "all stencils, moment matrices, relaxation rates, algebras of fields with derivations, hierarchies of populations, velocities, densities, dimensions; all stress tensors linear in the velocity gradient for the conditions", "why_tests_cant": "the equations are identities between fields, a simulation shows a viscosity up to discretisation error for a few rates; a wrong bulk viscosity or an accepted anisotropic method does not show for one relaxation rate", "anchors": ["src/lbmpy/chapman_enskog/chapman_enskog.py:18-172", "src/lbmpy/chapman_enskog/chapman_enskog.py:231-300", "src/lbmpy/chapman_enskog/chapman_enskog.py:441-553", "src/lbmpy/chapman_enskog/derivative.py:6-12"]}
{"id": "C69", "title": "Steady state Chapman-Enskog analysis: the hierarchy is the steady state of the lattice Boltzmann equation, and the viscosities are read off it", "statement": "The populations of the steady-state hierarchy are the unique ones that solve the Taylor expanded equation in every order up to the order of the analysis, for any collision matrix and force; on polynomial fields of at most that degree their sum is an exact steady state of the lattice Boltzmann equation, with the density and momentum of the equilibrium exactly if the continuity and momentum equations hold. With one relaxation rate the n-th populations are the n-th derivative of the equilibrium times the n-th coefficient of 1/(1+tau(exp(x)-1)). determine_viscosities returns the shear viscosity c_s^2(tau-1/2) and the bulk viscosity of the method.", "quantifier": "all orders, stencils, collision matrices, forces, equilibria, polynomial fields of any number of variables, relaxation rates, dimensions", "why_tests_cant": "the equations of order four have hundreds of terms that are compared with published formulas at most; exactness of the hierarchy for arbitrary order and non-commuting collision and transport cannot be sampled", "anchors": ["src/lbmpy/chapman_enskog/chapman_enskog_steady_state.py:14-174", "src/lbmpy/chapman_enskog/chapman_enskog_steady_state.py:177-310"]}
{"id": "C70", "title": "Boundary conditions inside the update kernel give the same evolution as the separate boundary kernel, in any order of the cells", "statement": "update_rule_with_push_boundaries with an in-place streaming pattern and boundary conditions on the faces of a box: after the kernel ran over the box in any order, every cell reads from each neighbour in the box what that computed, and for each direction coming from outside the value of the boundary condition of the face passed (the last listed one at edges and corners), computed from its own post-collision populations. Hence the run agrees, step for step, with the ordinary kernels of any streaming pattern followed by a boundary sweep, and a box with no-slip faces conserves mass. With the two-array patterns, which include the default, the generated kernel races: the result depends on the order of the cells.", "quantifier": "all dimensions, box sizes, inversion-symmetric stencils with velocities of at most one cell per step, in-place patterns, collision operators, boundary rules local to the cell, orders of cells, numbers of time steps, initial fields", "why_tests_cant": "a test runs one cavity for a hundred steps and compares two decimals of the velocity; conflicts between cells show only for particular orders and at corners", "anchors": ["src/lbmpy/boundaries/boundaries_in_kernel.py:15-20", "src/lbmpy/boundaries/boundaries_in_kernel.py:37-57", "src/lbmpy/boundaries/boundaries_in_kernel.py:60-109"]}
{"id": "C71", "title": "The simplex projection returns, in every cell, the nearest admissible phase concentrations", "statement": "simplex_projection_2d / simplex_projection_3d on cells whose concentrations sum to one: the loop ends after at most as many restarts as there are phases, nothing is divided by zero, and afterwards the concentrations of every cell are nonnegative and sum to one; a cell that was admissible already is not changed; and each cell is replaced by the point of the simplex nearest to it, independently of all other cells.", "quantifier": "all numbers of phases, cells, thresholds, real concentrations", "why_tests_cant": "the function runs on arrays from simulations where a wrong distribution between phases is small and the result still sums to one; that it is the nearest point, or that a cell depends on the cells before it, is not visible in such a run", "anchors": ["src/lbmpy/phasefield/simplex_projection.pyx:8-46", "src/lbmpy/phasefield/simplex_projection.pyx:52-91", "src/lbmpy/phasefield/nphase_nestler.py:232-233"]}
{"id": "C72", "title": "The Oldroyd-B model: frame-indifferent stress, exact divergence, exact extrapolation at boundaries", "statement": "The source term of the stress keeps it symmetric, does not depend on the observer (rotated and rotating frames), and vanishes in shear flow exactly for the Oldroyd-B stresses. The force computed from the face stresses is the divergence of the stress, exactly for stresses of second degree, on every set of faces; forces add up to zero in a periodic domain. The stress is updated from old values only. Each direction executes its own branch of the boundary kernels, a flux boundary is read back unchanged, extrapolation of order 0, 1, 2 is exact for polynomials of that degree at the face. Forces on boundaries can be computed with ForceOnBoundary and are the reaction to the forces on the fluid.", "quantifier": "all dimensions, velocity gradients, stresses, rotations, sets of faces, cells, numbers of directions, polynomials up to the order", "why_tests_cant": "the test simulates one channel flow on a coarse grid and compares with a profile up to a tolerance; frame indifference, other sets of faces and other orders of extrapolation are not run", "anchors": ["src/lbmpy/oldroydb.py:40-47", "src/lbmpy/oldroydb.py:49-76", "src/lbmpy/oldroydb.py:87-115", "src/lbmpy/oldroydb.py:128-166", "src/lbmpy/oldroydb.py:180-203"]}
{"id": "C73", "title": "Pipe and channel set-ups describe a symmetric Poiseuille flow between the walls", "statement": "The analytic pipe velocity field is maximal on the axis, zero exactly on the cylinder of the given radius, positive inside and negative outside, mirror symmetric across the flow, and in a plane channel equal to the unique solution poiseuille_flow of viscosity*u''=-force vanishing at the walls; the inflow boundary prescribes the same profile; the pipe walls are the cells where this velocity is negative. Cavity and channel set-ups mark every ghost cell as described (later boundaries overwrite earlier ones at edges), and create_channel accepts exactly one non-zero drive. vorticity_2d is exact for affine velocity fields in all cells and zero for discrete gradients.", "quantifier": "for all domain sizes, diameters, velocities, cells; all combinations of arguments of create_channel; all affine velocity fields", "why_tests_cant": "The tests use a few even domain sizes; int(round(n/2)) rounds halves to even, so the behaviour depends on the size modulo four, and edges of boundaries are only seen in flags nobody inspects.", "anchors": ["src/lbmpy/geometry.py:29-190", "src/lbmpy/scenarios.py:97-172", "src/lbmpy/analytical_solutions.py:20", "src/lbmpy/postprocessing.py:16-21"]}
{"id": "C74", "title": "Splitting the inner loop does not change what a kernel computes", "statement": "create_lbm_split_groups puts every main assignment in exactly one group: the quantities used by all non-centre equations, the velocities, the other written fields and the rest population in the first group, and every pair of opposite directions together in one further group. Running the loops of the groups one after the other over each line of cells, keeping the quantities of the first group, gives for patterns with two arrays the same populations as the kernel without splitting, and for patterns with a single array as well, provided every direction uses besides the kept quantities only its own population and the opposite one.", "quantifier": "for all collision rules, stencils closed under inversion, kernels, line partitions of the domain, array contents, all streaming patterns and time steps", "why_tests_cant": "The tests compare one split SRT/TRT kernel of the pull pattern; with a single array the result depends on which loop has already overwritten which slot, and this is wrong only for kernels (e.g. MRT in population space) and patterns no test combines.", "anchors": ["src/lbmpy/innerloopsplit.py:9-70", "src/lbmpy/updatekernels.py:48-56", "src/lbmpy/simplificationfactory.py:42-101", "src/lbmpy/creationfunctions.py:737-749"]}
{"id": "C75", "title": "Backward fast central moment transform inverts the forward one", "statement": "The split equations of FastCentralMomentTransform.backward_transform, executed in the order in which they are generated, return for every velocity and every set of monomial central moments populations with exactly these central moments, no other populations have them, and no symbol is used before it is assigned. The memoised recursion is sound in at most three dimensions with direction components -1, 0, 1; a longer link raises a KeyError and in four dimensions the generated assignments can be cyclic.", "quantifier": "all dimensions up to three, all stencils with components -1, 0, 1, all downward closed exponent sets with exponents up to two and invertible moment matrix, all velocities and moment values; the recursion for all polynomials of degree at most two per component", "why_tests_cant": "The shared dictionary of coefficients makes the equations of one direction depend on all directions processed before; tests run three stencils with one numbering, and cannot show that a symbol of an unfinished coefficient is never reused or that both transforms are inverse for all velocities.", "anchors": ["src/lbmpy/moment_transforms/centralmomenttransforms.py:710-792", "src/lbmpy/moment_transforms/centralmomenttransforms.py:611-667", "src/lbmpy/moment_transforms/centralmomenttransforms.py:517-520"]}
{"id": "C76", "title": "Generic quadratic equilibria: matching succeeds exactly for the standard form, and moment constraints fix the sound speed", "statement": "match_generic_equilibrium_ansatz returns a result exactly for the equilibria whose population in each direction is A + B(u.c) + C(u.c)^2 + D u^2 with coefficients depending only on the L1 speed of the direction, returns these coefficients (C in terms of D in one dimension, no B and C for the rest direction) and raises ValueError otherwise; the discrete Maxwellian of second order is matched, the one of third order is refused, and so is any equilibrium with two weights for one speed as on D2V37. moment_constraint_equations vanish exactly if the moments have the desired values; with hydrodynamic values and direction components -1, 0, 1 they force p = rho/3, and on D2Q9 the generic ansatz meets them exactly on an explicit two-parameter family.", "quantifier": "all dimensions, stencils, polynomial equilibria over a field of characteristic zero, parameter values and velocities", "why_tests_cant": "Tests match one Maxwellian per stencil; that no other equilibria pass, that the result is unique, and that the constraints have exactly these solutions are statements about all polynomials.", "anchors": ["src/lbmpy/quadratic_equilibrium_construction.py:14-112", "src/lbmpy/maxwellian_equilibrium.py:85-121"]}
{"id": "C77", "title": "Finite difference stencils of the high density ratio model", "statement": "fd_stencils_isotropic_high_density_code: in 2D the first derivative is exact for polynomials of degree 2 and its error on cubics is dx^2/6 times the derivative of the Laplacian (isotropic). The mixed derivative is exact up to degree 3. The function supports exactly dimensions 1, 2 with one or two indices. A single second derivative is NOT consistent: it yields (3 f_ii + f_jj)/4. Only the sum over both directions is a consistent Laplacian, and its leading error is not a multiple of the bi-Laplacian.", "quantifier": "all polynomials up to the given degree over a field of characteristic zero, all cells, all grid spacings", "why_tests_cant": "a discretisation is checked on a handful of fields; whether a stencil is exact on a whole space of polynomials is an algebraic statement", "anchors": ["src/lbmpy/phasefield/fd_stencils.py:6-32"]}
{"id": "C78", "title": "Analytic Neumann angles", "statement": "For positive surface tensions fulfilling the triangle inequalities the three Neumann angles are numbers between 0 and 180 degrees, add up to 360 degrees and make the three interfacial pulls cancel; they are the only such angles. Computed from the kappa parameters they are all numbers if and only if no kappa is negative, and they agree with those of neumann_angles_from_surface_tensions for every interface width.", "quantifier": "all real surface tensions / kappa parameters and interface widths", "why_tests_cant": "tests compare two parameter sets; the sum and the balance are identities over all parameters, and the boundary of definedness is not sampled", "anchors": ["src/lbmpy/phasefield/post_processing.py:135-149", "src/lbmpy/phasefield/contact_angle_circle_fitting.py:87-102"]}
{"id": "C79", "title": "Circle intersections and angles of a liquid lens", "statement": "circle_intersections returns exactly the common points of the two circles, if the centres have different ordinates and (for touching circles) different abscissas; centres above one another work for crossing circles because an infinite slope is inverted to zero. Touching circles above one another, and any meeting circles side by side, yield not-a-number. For a lens with centres above one another the three angles are numbers adding up to 360 degrees. Exchanging the two enclosing phases does not change the list, so that the documented labelling of the first two angles cannot hold in both orders.", "quantifier": "all centres and radii over the reals with numpy's infinities and not-a-number", "why_tests_cant": "configurations with exactly aligned centres and touching circles have measure zero; tests on fitted circles never meet them", "anchors": ["src/lbmpy/phasefield/contact_angle_circle_fitting.py:6-36", "src/lbmpy/phasefield/contact_angle_circle_fitting.py:105-146"]}
{"id": "C80", "title": "Intersections of contour lines and triple points", "statement": "find_intersections on two slanted transversal segments returns their crossing when it is inside both and nothing when it is outside one. For horizontal segments the ordinate, for vertical ones the abscissa is never returned, since abscissas and ordinates are filtered separately: np.array then raises on lists of different length, or halves of two crossings are combined to a point on neither line. get_triple_point_centers returns centroids of one intersection per pair within the threshold, and every point common to all three lists. Without intersections get_triple_points raises ValueError instead of returning the empty list. get_angle is symmetric, within 0..180 degrees and a number exactly for points away from the centre.", "quantifier": "all segments over an ordered field, all lists of points, all thresholds", "why_tests_cant": "axis-parallel contour segments depend on the data; tests use one smooth configuration", "anchors": ["src/lbmpy/phasefield/post_processing.py:9-15", "src/lbmpy/phasefield/post_processing.py:18-53", "src/lbmpy/phasefield/post_processing.py:56-93", "src/lbmpy/phasefield/post_processing.py:96-132"]}
{"id": "C81", "title": "Conditional kernel for partially saturated cells", "statement": "With two arrays, non-negative fractions and a total fraction vanishing exactly when all individual ones do, the kernel made of one conditional block per number of overlapping particles writes the same populations as the unconditional kernel for all particles, and the same forces on the particles present; with a single particle the two-branch kernel does so in every layout. For kernels writing where they read, a cell with two particles is collided twice, which differs from the unconditional kernel. Forces of absent particles keep their old value. A cell with positive total but no positive individual fraction is not written.", "quantifier": "all collision operators, stencils closed under inversion, solid collision options, particle numbers, fractions and cell contents", "why_tests_cant": "tests run at most a few particles with one collision operator on two arrays; the double collision needs overlapping particles with an in-place pattern", "anchors": ["src/lbmpy/creationfunctions.py:871-918", "src/lbmpy/partially_saturated_cells.py"]}
{"id": "C82", "title": "Boundaries writing the boundary node: NeumannByCopy and StreamInConstant", "statement": "In every streaming pattern NeumannByCopy copies the two populations of the fluid cell along a link to the boundary node and leaves everything else unchanged; the fluid cell reads next, for the reversed direction, the population it sent in that direction; order and repetitions of the index list do not matter. This needs that no two fluid cells face each other through one boundary node: then both links store to the same two entries and the last one decides. StreamInConstant stores its constant in both entries of every link, without this condition. With the push pattern the second store of a link goes two cells away from the fluid cell, beyond a single ghost layer.", "quantifier": "all supported stencils and patterns, timesteps, link lists of any fluid region on any grid group, array contents", "why_tests_cant": "there is no test of these conditions with in-place patterns; the race needs one-cell-thick walls and depends on the iteration order", "anchors": ["src/lbmpy/boundaries/boundaryconditions.py:1187-1240", "src/lbmpy/advanced_streaming/indexing.py:94-132"]}
{"id": "C83", "title": "Correction and stabilisation coefficients of the n-phase model: absent phases stay absent where up to three phases meet", "statement": "For any number of phases with symmetric surface tensions for which the diffusion coefficients exist, and a triple of phases whose surface tensions have non-zero discriminant (in particular every triple without complete spreading), the linear systems of capital_lambda and capital_theta have exactly one solution. With these coefficients the corrected and stabilised energy capital_f has, at every point of the Gibbs simplex where at most three phases are present, a potential alpha*dF/dc that vanishes for every absent phase, for every stabilisation factor. Without the correction the potential of an absent phase is -Gamma times the product of the three present concentrations; for equal tensions of n phases Gamma is -42/n, so absent phases would be driven.", "quantifier": "all numbers of phases, all symmetric surface tensions with regular triples, all stabilisation factors, all concentrations with at most three non-zero entries", "why_tests_cant": "the only test compares the four-phase functions for one symbolic tension matrix; the claim is about solutions of parameter-dependent linear systems and derivatives of an n-phase polynomial", "anchors": ["src/lbmpy/phasefield/n_phase_boyer.py:200-230", "src/lbmpy/phasefield/n_phase_boyer.py:253-280", "src/lbmpy/phasefield/n_phase_boyer.py:127-129"]}
{"id": "C84", "title": "Simplifications of collision rules do not change what is computed", "statement": "Each simplification pass on a collision rule (products of velocities, factoring by rates and density, density and velocity, the common quadratic term, common subexpressions of opposing directions, conserved quantities from moments, removal of unused subexpressions), and the strategy for methods with one or two relaxation rates, returns a rule that can be executed from top to bottom, assigns the same main symbols and gives each of them the same value for all inputs; or it raises because a hint is missing. (False for cse_in_opposing_directions: assignments behind the populations, like output fields, are dropped.)", "quantifier": "all assignment collections in executable order, all expression algebras, all stencils without repeated entries, all values of the free symbols", "why_tests_cant": "tests compare kernels of a few methods and configurations; which symbols a pass may collide with and which assignments it loses shows only in combinations that are not run", "anchors": ["src/lbmpy/methods/momentbased/momentbasedsimplifications.py:18-267", "src/lbmpy/methods/momentbased/momentbasedsimplifications.py:365-400", "src/lbmpy/simplificationfactory.py:44-61", "src/lbmpy/creationfunctions.py:743-765"]}
{"id": "C85", "title": "The temperature solver is a consistent Runge-Kutta method", "statement": "The kernels of get_runge_kutta_update_assignments, executed one after the other over the cells in any order, perform one step of the explicit midpoint rule (one Runge-Kutta field) or of the classical fourth-order method (three fields) for the semi-discrete heat equation with advection and variable conduction; an affine temperature is transported with the velocity, steady states stay. (False with three fields: the last stage enters with the wrong sign, the weights sum to two thirds.)", "quantifier": "all dimensions, difference weights, phase and velocity fields, coefficients, temperatures, cell orders and numbers of Runge-Kutta fields", "why_tests_cant": "the tests of the thermocapillary model compare a few runs near steady state, where a wrong weight of a stage only slows the evolution", "anchors": ["src/lbmpy/phasefield_allen_cahn/numerical_solver.py:15-121"]}
{"id": "C86", "title": "The reference solution for the microchannel solves the thermocapillary two-layer problem", "statement": "analytical_solution_microchannel returns, for every admissible set of parameters, temperatures and velocities such that: the temperature is harmonic in both layers, takes the prescribed values at the walls, and temperature and heat flux are continuous at the interface; the velocity is a Stokes flow in both layers, vanishes at the walls, is continuous at the flat interface, and the jump of the shear stress balances the gradient of the surface tension; it raises ZeroDivisionError exactly for degenerate parameters; coordinates and values correspond entry by entry (not without transposition).", "quantifier": "all real parameters with length at least 4 (errors: all parameters), all points of the channel, all grid sizes", "why_tests_cant": "the function is itself the reference other results are compared with; a wrong constant gives an equally smooth field", "anchors": ["src/lbmpy/phasefield_allen_cahn/analytical.py:18-89"]}
{"id": "C87", "title": "The high density ratio free energy has its minima at the coexisting densities", "statement": "free_energy_high_density_ratio chooses the only integration constant for which both phases have the same free energy. For densities of equal pressure the derivative of the free energy at the phases is proportional to the deviation of the Maxwell construction; it vanishes exactly for coexisting densities, and is bounded by the tolerance of maxwell_construction. For an isotherm below the critical temperature the free energy is nonnegative and zero exactly in the homogeneous phases.", "quantifier": "all equations of state with an antiderivative, all pairs of densities, all prefactors, all states", "why_tests_cant": "tests run one equation of state and one pair of densities and look at the simulation result; that the energy is minimal at the phases is a statement about all densities", "anchors": ["src/lbmpy/phasefield/high_density_ratio_model.py:8-52", "src/lbmpy/phasefield/eos.py:42-104"]}
{"id": "C88", "title": "Kernels of the multi-phase model conserve what they should on a periodic grid", "statement": "The finite difference step of the Cahn-Hilliard equation conserves the amount of every phase, dissipates energy without flow, keeps a uniform state, and changes the sum of the concentrations only by the divergence of the velocity and the sum of the chemical potentials. The force kernel using the pressure tensor adds no momentum in total, with and without the square root term; the force kernel using chemical potentials adds none from the gradient terms (false for the bulk terms). Both forces vanish in a uniform state. Every entry of the pressure tensor that is read is the one that was stored.", "quantifier": "all grid sizes and dimensions, all fields, all free energies with products of two gradients, all step sizes and mobilities, runs of any length", "why_tests_cant": "tests look at one simulation for a limited time and with a tolerance; exact conservation for all fields is an algebraic identity", "anchors": ["src/lbmpy/phasefield/kerneleqs.py:13-89", "src/lbmpy/phasefield/kerneleqs.py:92-120", "src/lbmpy/phasefield/analytical.py:243-262"]}
{"id": "C89", "title": "Iterative initialisation reaches the prescribed velocity", "statement": "run_iterative_initialization with the rule of create_advanced_velocity_setter_collision_rule conserves mass and relaxes the momentum of each cell towards the prescribed one with the rate passed by the caller; on uniform domains the velocity converges to the prescribed one, also with a force. A successful call returns a residuum below the threshold, reached at the first possible check and after at most max_steps steps; an unsuccessful one raises ValueError and restores the velocity. The residuum is the average difference of prescribed and computed velocity, and each call uses the rate it is given.", "quantifier": "all moment-based methods, rates, force models, prescribed velocity fields, populations, periodic domains, numbers of steps; all check intervals, limits and thresholds; all partitions into blocks and processes", "why_tests_cant": "Tests initialise one decaying shear flow without force on a single block, where the wrong limit, the ignored blocks and the cached rate cannot be seen; the limit is a statement about infinitely many steps.", "anchors": ["src/lbmpy/macroscopic_value_kernels.py:245-282", "src/lbmpy/lbstep.py:349-432", "src/lbmpy/methods/conservedquantitycomputation.py:218-272"]}
{"id": "C90", "title": "Time steps on arrays with ghost layers are time steps on the periodic domain", "statement": "The time steps of PhaseFieldStep, PhaseFieldStepDirect, CahnHilliardFDStep and the n-phase model of Nestler synchronise every array before a kernel reads it in neighbouring cells, with enough ghost layers, and never access memory outside of the arrays: after any number of steps the domain contains what kernels on the periodic grid would have computed. The result depends neither on what the ghost layers contained at the beginning nor on the order in which a kernel treats the cells. What run() of Nestler's model returns is one layer larger than the domain on every side, with periodic copies in this layer.", "quantifier": "all kernels that read only the stated accesses, all contents of arrays and ghost layers, all domain sizes and dimensions, numbers of order parameters, numbers of time steps, orders of the cells", "why_tests_cant": "A test runs one model on one domain with ghost layers that happen to be zero or uniform, in the order of one compiler; a missing synchronisation changes values only near the rim and may vanish against tolerances.", "anchors": ["src/lbmpy/phasefield/phasefieldstep.py:60-188", "src/lbmpy/phasefield/phasefieldstep.py:242-256", "src/lbmpy/phasefield/kerneleqs.py:92-120", "src/lbmpy/phasefield/phasefieldstep_direct.py:44-177", "src/lbmpy/phasefield/nphase_nestler.py:70-236", "src/lbmpy/lbstep.py:271-282"]}
{"id": "C91", "title": "The multi-phase simulation conserves order parameters, mass and momentum", "statement": "After any number of calls of PhaseFieldStep.time_step on a periodic domain the total of every order parameter and the mass of the flow are what they were, for both Cahn-Hilliard solvers and with or without a density order parameter; the momentum of the flow has changed by exactly the number of steps times the sum over order_parameter_force of force times total order parameter (not at all if the flow is not run); and in every cell an order parameter equals the sum of its populations, or the density of the flow. This holds for every free energy the pressure tensor exists for, for all incompressible methods with discrete Maxwellian and all force models but CentralMoment and He, whatever the ghost layers contain and in whatever order cells are updated.", "quantifier": "all dimensions, domain sizes, numbers of order parameters and steps, free energies, parameters, initial fields consistent with the populations, ghost layer contents, cell orders", "why_tests_cant": "Tests run single scenarios and look at profiles or contact angles; a drift of a conserved quantity that depends on the free energy, the number of phases or the domain would not be seen, and floating point hides small leaks.", "anchors": ["src/lbmpy/phasefield/phasefieldstep.py:22-256", "src/lbmpy/phasefield/kerneleqs.py:13-120", "src/lbmpy/updatekernels.py:87-120"]}
{"id": "C92", "title": "The multi-phase model with penalty conserves every phase and moves the sum of phases by the bulk energy only", "statement": "A time step of the run function returned by create_model computes on the periodic grid: the chemical potentials, which are the derivatives of bulk energy and penalty by the order parameters plus interfacial parts that add up to zero; the force from them; the flow with this force; and order parameters that are the sums of equilibria for their value, potential and velocity, streamed once. Every order parameter is conserved, and the mass of the flow while no density is zero. A phase that is absent everywhere stays absent exactly up to the Laplacian of the pairs of the others times the coefficient of triples. With the simplex projection all cells are in the simplex after every step. create_model raises a KeyError exactly if a pair of phases lacks a coefficient.", "quantifier": "all fields of characteristic zero, numbers of phases, coefficients, dimensions, domain sizes, steps, initial contents of the arrays including ghost layers, cell orders; collisions of all predefined stencils", "why_tests_cant": "The package has no test with reference values for this model. Amounts, sums of phases and absent phases depend on all kernels, synchronisations and swaps together, and deviations in single runs look like discretisation errors.", "anchors": ["src/lbmpy/phasefield/nphase_nestler.py:46-236", "src/lbmpy/phasefield/cahn_hilliard_lbm.py:8-41", "src/lbmpy/phasefield/simplex_projection.pyx:8-46"]}
{"id": "C93", "title": "Finite differences of the conservative Allen-Cahn model are consistent, determined by their requirements, and isotropic except for the Laplacian with 15 directions", "statement": "On every polynomial up to degree five the Laplacian returned by laplacian_symbolic is the Laplacian plus one twelfth of the Laplacian twice, with 15 directions plus 5/72 of all mixed fourth derivatives; so its leading error is isotropic exactly for all supported stencils except those with 15 directions. On every polynomial up to degree four every component of isotropic_gradient_symbolic is the derivative plus one sixth of the derivative of the Laplacian; the third component in two dimensions is zero. On periodic domains the Laplacian is symmetric and the components of the gradient are antisymmetric, both add up to zero. The weights are the only ones with the symmetries, set weights, order and isotropy the code asks for; on 15 directions no symmetric weights have all of these for a second derivative. Other sizes raise ValueError, a gradient in one dimension IndexError.", "quantifier": "all predefined stencils and orderings, all fields of characteristic zero, all polynomials up to the degree, all places, all periodic domain sizes and values on them, all other choices of weights", "why_tests_cant": "A test compares with the same formula at a few stencils; consistency and isotropy are statements about all polynomials, uniqueness about all other weights.", "anchors": ["src/lbmpy/phasefield_allen_cahn/derivatives.py:6-43", "src/lbmpy/phasefield_allen_cahn/derivatives.py:46-94"]}
{"id": "C94", "title": "The four central moment transforms agree, background and aliases included", "statement": "PdfsToCentralMomentsByMatrix, FastCentralMomentTransform, BinomialChimeraTransform and PdfsToCentralMomentsByShiftMatrix, with aliased monomials removed and with a background distribution, all compute the polynomial central moments of populations plus background, and their backward transforms are the inverse. For the default and cascaded moment sets of the predefined stencils all four can be constructed for every isotropic background and every velocity. In fewer than three dimensions a set with more monomials than directions makes BinomialChimeraTransform raise an IndexError in both directions, always.", "quantifier": "all first-neighbour stencils, polynomials, backgrounds, populations and velocities; all offered moment sets on all predefined stencils in every order of non-decreasing degree", "why_tests_cant": "The tests compare the transforms on a few moment sets of single stencils, symbolically without an alias, and never with aliases in two dimensions; the equality for all backgrounds and velocities, and the role of aliases in the background, is not sampled.", "anchors": ["src/lbmpy/moment_transforms/centralmomenttransforms.py:61-1001", "src/lbmpy/moment_transforms/rawmomenttransforms.py:297-404", "src/lbmpy/moments.py:292-345", "src/lbmpy/moments.py:551-625"]}
{"id": "C95", "title": "The force of He in central moment space does not depend on the velocity", "statement": "In central moment space the force model He adds (1 - \u03c9/2) times (cumulant methods: half before and half after the collision) the central moments of the force term F\u00b7(\u03be-u)/(\u03c1 c_s\u00b2) f^eq of the continuous Maxwellian. These are the averages over a normal distribution of variance 1/3 of the derivative of the moment polynomial in the direction of the force, so they depend on neither the velocity nor the density: no mass, momentum F, and e.g. F_y/3 for x\u00b2y. It holds for every set of polynomials whose span does not depend on the origin, in particular for the default and cascaded sets in every order of non-decreasing degree on every stencil but D3Q15. A collision conserves mass and adds exactly F to the momentum. False for the cascaded set of D3Q15: the last moment of the force is -6 \u03a3 u_a\u00b3 F_a instead of 0.", "quantifier": "all dimensions, stencils, polynomial sets, velocities, densities, forces and rates over a field; the offered sets over all predefined stencils; the integral over all real values", "why_tests_cant": "the claim is an identity in velocity, density and force for a family of moment sets; the deviation on D3Q15 is of third order in the velocity and invisible in runs at small velocities", "anchors": ["src/lbmpy/forcemodels.py:370-435", "src/lbmpy/moments.py:443-466", "src/lbmpy/moments.py:572-596", "src/lbmpy/methods/default_moment_sets.py:58-79"]}
{"id": "C96", "title": "Making a force symbolic keeps its value", "statement": "A force model replaces each component of the given force that is not a plain symbol by one of F_x, F_y, F_z and hands a substitution dictionary to the collision rule and to the equations of the conserved quantities. In every sorted collection of assignments that contains these substitutions, the symbolic force has the value of the given force. If no component mentions a replaced name, this is its value on entry, every order of the substitutions is valid, and no other symbol changes.", "quantifier": "All forces with at most three components built from numbers, symbols, sums, products and inverses; all collections of assignments to different symbols in any valid order; all values of the symbols over every field.", "why_tests_cant": "The failure depends on how the user names symbols: a test suite uses a few names, the collision happens exactly for the names F_x, F_y, F_z in certain positions.", "anchors": ["src/lbmpy/forcemodels.py:102-127", "src/lbmpy/methods/conservedquantitycomputation.py:506-521", "src/lbmpy/methods/momentbased/momentbasedmethod.py:343-345", "src/lbmpy/creationfunctions.py:470-471"]}
{"id": "C97", "title": "The two raw moment transforms agree", "statement": "The matrix transform and the chimera transform between populations and polynomial raw moments compute the moments of populations plus background distribution, and their backward directions are the inverses. The matrix transform can be constructed exactly if the moments determine the populations, the chimera transform if in addition as many monomials remain after the removal of aliases as the stencil has directions. This holds for all moment sets the library offers.", "quantifier": "All first-neighbour stencils, all sets of polynomials, all backgrounds whose moments respect aliases, all populations over every field; all offered sets in every order with every isotropic background.", "why_tests_cant": "The claim is about every user defined set of moments and every background; tests run a few sets, on which the removal of aliases often does nothing.", "anchors": ["src/lbmpy/moment_transforms/rawmomenttransforms.py:20-444", "src/lbmpy/moments.py:313-345", "src/lbmpy/moment_transforms/abstractmomenttransform.py:64-73"]}
{"id": "C98", "title": "Copy kernels on GPUs do what copies of slices do", "statement": "The kernels generated for the periodicity handling with cupy_direct_copy=False (periodic_pdf_gpu_copy_kernel) are always accepted, access the array only inside of its bounds, read no cell they write, and leave the array in exactly the state in which the copies of slices of the CPU leave it, whatever the interleaving of the loads and stores of the threads. For slices with common cells, which the function does not reject, the result depends on the interleaving.", "quantifier": "all domain sizes, periodicities, streaming patterns, time steps, orders of the slices, contents of array and registers, and all interleavings of threads", "why_tests_cant": "A race depends on the schedule of the GPU; a test sees the schedules that happen on one device.", "anchors": ["src/lbmpy/advanced_streaming/communication.py:103-119", "src/lbmpy/advanced_streaming/communication.py:186-231"]}
{"id": "C99", "title": "Forcing in central moment space is the force seen from the moving frame", "statement": "central_moment_space_forcing of Simple, Luo, Guo, Buick, EDM and ShanChen gives the central moments, about the fluid velocity, of the terms the model has for populations, scaled with the relaxation rates of the central moments: no mass, the force (scaled as in moment space) as momentum; second central moments vanish for Luo and Guo, are independent of the velocity for ShanChen and EDM, and are proportional to the velocity for Simple and Buick. With a single relaxation rate the forcing agrees with the terms for populations for every model; with several, Guo in raw moment space differs by a stated amount. The symmetric forcing before and after the collision (Simple, Luo, Guo) has the same effect as the central forcing.", "quantifier": "all stencils with isotropic weights, all moment bases with a shift matrix, all rates, densities, velocities and forces over any field of characteristic zero", "why_tests_cant": "The statements are identities in velocity, force and all relaxation rates, for any moment basis; tests evaluate single methods.", "anchors": ["src/lbmpy/forcemodels.py:201-210", "src/lbmpy/forcemodels.py:261-270", "src/lbmpy/forcemodels.py:300-313", "src/lbmpy/forcemodels.py:480-487", "src/lbmpy/forcemodels.py:515-518", "src/lbmpy/forcemodels.py:568-583"]}
