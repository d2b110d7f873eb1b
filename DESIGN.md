# Formal model of lbmpy in Lean 4 — design

The code generator lbmpy turns a lattice Boltzmann method into kernels. What a user relies on is
(a) that the *addressing* of populations (streaming patterns, boundary proxies, periodic copies, sparse lists)
is right, (b) that the *algebra* (moments, equilibria, collision, force models, boundary rules, conversions) is an
identity for all states, and (c) that small *protocols* (time loop, boundary handling, statistics) keep their
contract over all histories. All three are expressible without floating point.

## Conventions of the model

* Lattice vectors are `Fin D → ℤ` for an arbitrary dimension `D`; a stencil is a finite family of them (`Stencil D`),
  exactly the python tuple of tuples. Exceptions are values of `Except PyErr`, or `none` where only one can occur.
* Cells are elements of an arbitrary commutative group `G` with a homomorphism from lattice vectors. `G = ℤ^D` is the
  infinite lattice, `G = ∏ ℤ/n_i` the periodic domain.
* Population values live in an arbitrary type (addressing), or an arbitrary field / ordered field (algebra).
* sympy expressions are modelled by the function they denote, or by a syntax tree together with its value when the
  rewriting itself is the subject (C22, C34, C35, C37).
* A kernel is a fold of cell updates over a list of cells (the loop nest); a field is a function from
  (cell, index) to values. Schedules are all permutations of the list.
* Every definition cites the python file and lines it models and says where it simplifies.
* Specifications are small definitions in the files of `Props` (namespace `Spec` or stated inline as sums) which do not
  use functions of the model.
* Where a claim is false of the code, the negation is proved for a concrete witness, and the strongest true part is kept.
  The claim then has status `partial` in `MANIFEST.json`.

## Layout

`lean/Verif/<Topic>.lean` holds the model and helper lemmas, `lean/Verif/Props/<Topic>.lean` the property theorems with
an `example` showing that the hypotheses are met by a concrete non-trivial case. `seeded/LOG.jsonl` records wrong
versions of the model which the theorems reject.

| module | source | properties |
|--------|--------|------------|
| Stencil, StencilCtor, StencilTables | stencils.py | C13, C14 |
| Streaming, StreamingLemmas, Sweep | fieldaccess.py, advanced_streaming/utility.py, updatekernels.py | C01–C06 |
| PeriodicAccess | fieldaccess.py (PeriodicTwoFieldsAccessor) | C11 |
| Communication | advanced_streaming/communication.py | C12 |
| Indexing | advanced_streaming/indexing.py | C07 |
| Boundary, BoundaryRules | boundaries/boundaryconditions.py, boundaries/boundaryhandling.py, custom_code_nodes.py | C08–C10, C29–C31, C43–C45 |
| Moments, MomentsLemmas, MomentSets, MomentCertificates, GramSchmidt | moments.py, methods/default_moment_sets.py | C15–C18, C46–C48 |
| Maxwellian | maxwellian_equilibrium.py, equilibrium/discrete_hydro_maxwellian.py | C20 |
| Collision | methods/momentbased/momentbasedmethod.py, methods/creationfunctions.py (SRT, TRT) | C19, C36, C38 |
| MomentEquations, Macroscopic | methods/conservedquantitycomputation.py, macroscopic_value_kernels.py | C21, C22 |
| ForceModels | forcemodels.py | C23 |
| Parameters | relaxationrates.py, parameterization.py | C24, C25 |
| Welford | flow_statistics.py | C26 |
| Psm | partially_saturated_cells.py | C27 |
| Turbulence | turbulence_models.py, non_newtonian_models.py, utils.py | C28 |
| Sparse | sparse/mapping.py, sparse/update_rule_sparse.py | C32 |
| RelaxationInfo | methods/creationfunctions.py (_get_relaxation_info_dict), relaxationrates.py | C33 |
| SymbolicRates | methods/abstractlbmethod.py | C34 |
| Chimera | moment_transforms/rawmomenttransforms.py, moment_transforms/centralmomenttransforms.py | C35 |
| SymSplit | methods/momentbased/momentbasedsimplifications.py | C37 |
| Shuffle, Cumulants | cumulants.py, continuous_distribution_measures.py | C39 |
| TimeLoop | boundaries/boundaryhandling.py, lbstep.py | C40–C42 |
| Continuous, ContinuousLemmas | continuous_distribution_measures.py, maxwellian_equilibrium.py, equilibrium/continuous_hydro_maxwellian.py | C49 |
| CumulantTransform | moment_transforms/cumulanttransforms.py | C51 |
| CentralMoments, MomentExpansions | moments.py (shift matrix), centralmomenttransforms.py (matrix transform), centralmomentbasedmethod.py | C52, C53 |
| Entropic | methods/momentbased/entropic.py | C58 |
| Fluctuating | fluctuatinglb.py | C59 |
| AllenCahn | phasefield_allen_cahn/kernel_equations.py, parameter_calculation.py, contact_angle.py | C60, C61 |
| AllenCahnScenarios | phasefield_allen_cahn/parameter_calculation.py (benchmark functions) | C62 |
| PhaseField | phasefield/analytical.py (free energies, chemical potentials) | C63 |
| PressureTensor | phasefield/analytical.py (pressure tensor, forces, linear index) | C64 |
| Eos | phasefield/eos.py | C65 |
| CahnHilliardLb | phasefield/cahn_hilliard_lbm.py, methods/creationfunctions.py (create_from_equilibrium) | C66 |
| Boyer | phasefield/n_phase_boyer.py | C67 |
| ChapmanEnskog | chapman_enskog/chapman_enskog.py, chapman_enskog/derivative.py | C68 |
| SteadyState | chapman_enskog/chapman_enskog_steady_state.py | C69 |
| InKernel | boundaries/boundaries_in_kernel.py | C70 |
| GpuCopy | `communication.py:86-119, 186-231` | threads as interleaved loads and stores; `normalize_slice` and `iteration_slice` of pystencils after their contract |
| CentralForcing | `forcemodels.py:201-210, 261-270, 300-313, 480-487, 515-518, 568-583` | expressions evaluated as in ForceModels |
| CompiledMacro | `macroscopic_value_kernels.py:88-242`, names in `conservedquantitycomputation.py:138-142,251` | the choice of cells by `create_kernel` is taken from pystencils; cells in any order; layouts, data types and the blueprint array left out; velocities have as many components as the dimension |
| StrainRate | `macroscopic_value_kernels.py:14-85`, `utils.py:4-7` | values instead of symbols, the values of the undefined density and velocity symbols are arguments; exact flows only for the equilibrium of first order, compressible, no force |
| EdmSubst | `forcemodels.py:492-509` | terms of SymbolicForce; `subs` of SymPy with a dictionary: items sorted by name, replaced one after the other |
| SparseBoundary | `sparse/mapping.py:157-241`, `sparse/update_rule_sparse.py:54-80` | assignments of a boundary condition as accesses (offset and index as functions of the direction) with an arbitrary right hand side; the enumeration of links by pystencils is an argument; additional data columns are not modelled as memory |
| OutflowInit | `boundaries/boundaryconditions.py:919-991`, `equilibrium/discrete_hydro_maxwellian.py:58-86` | initial values as constants or functions of the cell; coordinates of the callback (scaled with `dx`, shifted by the ghost layers) are the argument of the function, not modelled separately; the index array is the list of links |
| LbSimulation, Spec/Simulation | `lbstep.py:46-50,121-165,271-282,311-327` | synchronisation of ghost layers by pystencils as a contract (cells of the domain unchanged, populations moving in from periodic sides copied, everything else arbitrary); flags of ghost cells outside of periodic sides are those of the cells they stand for; GPU transfers in C41 |
| Spec.Channel, Props.Poiseuille, Props.PoiseuilleMethods, Props.Couette | no new model: LbSimulation, HydroMethods, Parameters, Geometry together | steady flow between plates, rows the same; not modelled: entry and outlet of `create_channel`, ducts and pipes |
| VelocityInput | `creationfunctions.py:656-681` | the conserved quantities of the equilibrium with `density_input` / `velocity_input`; vectors have an entry for every axis |
| Spec.Decay, Props.Decay, Props.DecaySimulation, Props.DecayMethods | no new model: LbSimulation, VelocityInput, BoundaryRules together | diffusion at rest with real populations; not modelled: rounding errors |
| Spec.Stokes, Props.Stokes, Props.StokesMethods | no new model: LbSimulation, BoundaryRules, MomentMethod together | flow with no-slip and velocity walls, real populations; not modelled: rounding errors |
| IncompressibleMoments | `maxwellian_equilibrium.py:230-266`, `quadratic_equilibrium_construction.py:95-108` | terms after `expand()` as multivariate polynomials; no negative exponents |
| TakeMoments | `chapman_enskog/chapman_enskog.py:339-396` | equations are sums of products of factors; nested derivatives are lists of targets; the expansion by pystencils is not modelled |
| NavierStokesMatch | `chapman_enskog/chapman_enskog.py:556-616` | equations are polynomials in fields, moments and their first derivatives; the expansion by pystencils is not modelled, the reference equations are given in expanded form; the order of the sets of atoms is a parameter |
| ZeroConditions | `phasefield/n_phase_boyer.py:285-315,339-342` | expressions with cases; conditions compare products of symbols with zero; the arithmetic of sympy is by value; the order of sets is a parameter |
| ChainSolve | `chapman_enskog/chapman_enskog.py:411-438,619-629` | equations are affine in the unknowns over a field, with remainders in a vector space; normalisation is the identity on values; `sp.solve` for the moments is the unique solution |
| CopyKernel | `updatekernels.py:123-140` | the kernel runs over a list of cells one after the other; arrays are functions |
| DomainSize | `max_domain_size_info.py:47-102,142-158` | real numbers; `float()` of strings is a parameter; the machine queries are not modelled |
| MomentShift | `conservedquantitycomputation.py:455-503` | a right hand side is its value as a function of the symbols |
| BulkInterface | `phasefield/analytical.py:196-207` | expression trees; `expand` left out; `nan`/`zoo` is `none` |
| Concentrations | `phasefield/phasefieldstep.py:47-56,262-276,297-309`, `phasefield/scenarios.py:12-87` | one list of concentrations for a set of cells; conversions on lists; at least two order parameters |
| InitialProfiles | `phasefield/experiments1D.py:55-95` | a row of cells along the first axis, indices as in `cell_index_arrays` |
| DiscreteEntropy | `methods/momentbased/entropic.py:188-210` | real values, `zip` stops at the shorter list |
| CeSubst | `chapman_enskog/chapman_enskog.py:283-336` | expression trees with integer powers; values of the moments are parameters; expanded before |
| HigherOrder | `chapman_enskog/chapman_enskog_higher_order.py:35-91` | conditions and loops; solving for the moments (`sp.linsolve`) is not modelled |
| DerivExpansion | `chapman_enskog/derivative.py:6-23`, `chapman_enskog.py:86-90` | derivatives of names only; replaced simultaneously |
| EqualityTable | `moments.py:629-700` | cells and counts; the comparison of discrete and continuous moments is a parameter |
| MaskedSlice | `lbstep.py:228-250` | shapes and values in C order; `np.repeat` and `np.ma.masked_array` by their documentation |
| ImageMask | `geometry.py:193-261` | black pixels as a function; size after `zoom`, `slice_intersection`, `shift_slice` written out; exact numbers |
| ScalingWidget | `parameterization.py:11-153` | numbers of the form as rationals, notification of listeners with a bound on the depth; no layout |
| DropSetup | `experiments2D.py:41-97` | rectangles in tenths of the domain, filled one after the other; exact fractions |
| InsertSubexpressions | `momentbasedsimplifications.py:323-360` | small expressions; the loop of `insert_subexpressions` (pystencils) written out |
| RawTransforms | `rawmomenttransforms.py:20-444`, `moments.py:313-345`, `abstract_equilibrium.py:108-125` | Matrix and chimera transform with constructors, removal of aliases, background, both directions for polynomials and monomials, without simplifications |
| SymbolicForce | `forcemodels.py:102-127`, `conservedquantitycomputation.py:506-521`, `creationfunctions.py:470-471` | Symbolic force vector, substitution dictionary, assignments in any topological order; expressions are terms over numbers, symbols, sums, products, inverses |
| HeCentral | `forcemodels.py:370-435` (`He` in central moment space) | raw moments of the force from ForceModels, shift matrix from CentralMoments |
| CentralTransforms | `moment_transforms/centralmomenttransforms.py:61-1001` (constructors and both directions of the four transforms, without simplification), `moments.py:551-625`, `rawmomenttransforms.py:297-404`, `abstractmomenttransform.py:68-71` | assignments are executed; matrices of expressions are functions of the velocity; `return_monomials` and conserved quantity equations not modelled |
| Derivatives | `phasefield_allen_cahn/derivatives.py:6-94` | weights as tables (pystencils solves for them), uniqueness proved; 25 directions left out |
| Nestler | `phasefield/nphase_nestler.py:46-236` | kernels of `create_model` filled into `nestlerStep` of GhostLayers; the projection runs separately over the cells with its state (in `nestlerStep … true` of GhostLayers it is a kernel without memory, which is right only for its accesses) |
| PhaseFieldRun | `phasefield/phasefieldstep.py` constructor | the kernels of `PhaseFieldStep` filled into the programs of GhostLayers; collisions are parameters |
| GhostLayers | `phasefield/phasefieldstep.py` 60-188, 242-256, `kerneleqs.py` 92-120, `phasefieldstep_direct.py` 44-177, `nphase_nestler.py` 70-236, `lbstep.py` 271-282 | programs of synchronisations, kernels and swaps on arrays with ghost layers; kernels are arbitrary functions of the stated accesses; iteration regions and periodic synchronisation as in pystencils; no boundary handling |
| IterativeInit | `macroscopic_value_kernels.py` 245-282, `lbstep.py` 349-432 | real or field values, moment-based methods, periodic domains without boundaries; the loop over abstract kernels; NaN residua; blocks and processes as lists |
| PhaseKernels | `phasefield/kerneleqs.py` | periodic grids of any size; the schemes of `discretize_spatial('standard')` and `Discretization2ndOrder` of pystencils are written out |
| Microchannel | `phasefield_allen_cahn/analytical.py` (microchannel) | real numbers; arrays as lists |
| HighDensityRatio | `phasefield/high_density_ratio_model.py` | antiderivative of the equation of state is a parameter |
| HeatSolver | `phasefield_allen_cahn/numerical_solver.py` | difference weights from pystencils are a parameter; stages as kernels over cells in sequence |
| Simplify | `methods/momentbased/momentbasedsimplifications.py:18-267,365-400`, `simplificationfactory.py:44-61` | sympy and pystencils are a structure `Sympy` of operations with contracts (value and free symbols); an instance is given beside the theorems; split groups not modelled |
| BoyerCoefficients | `phasefield/n_phase_boyer.py` 127-129, 200-230, 253-280, 336 | `sympy.solve` of the linear systems: the solution if the system has one, the bare symbol otherwise |
| CopyBoundaries | `boundaries/boundaryconditions.py` 1187-1240 | two stores per link, sequential; shifted proxies resolved as in `indexing.py` 126-130 |
| PsmKernel | `creationfunctions.py` 871-918 | one cell with its source, destination and force entries; layouts: two arrays or in place (accesses of the cell identified, neighbours outside); the force factor mentioned in the source comment enters through the collision operator |
| PostProcessing | `phasefield/post_processing.py` 9-149, `phasefield/contact_angle_circle_fitting.py` 6-36, 87-146 | exact numbers with numpy's infinities and not-a-number, no rounding, no signed zero; contour extraction (scikit-image) and circle fitting (scipy) outside |
| FdStencils | `phasefield/fd_stencils.py` 6-32 | the central differences of pystencils are written down as what they return |
| QuadraticEq | `quadratic_equilibrium_construction.py` 14-112: ansatz, matching, moment constraints, hydrodynamic moment values | `sp.solve` by what it returns for these linear systems; values compared as numbers; moment values up to order three, compressible |
| FastBackward | `moment_transforms/centralmomenttransforms.py` 710-792 (611-667, 517-520): memoised splitting of the backward equations of the fast central moment transform | degree at most two per velocity component; `subs`/`collect`/`coeff` by their results; no simplification strategies |
| SplitGroups | `innerloopsplit.py` | pre-computed symbols, groups of directions, effect of the split loop on the arrays; pystencils' transformation of the syntax tree is not modelled |
| Geometry | `geometry.py`, `scenarios.py`, `analytical_solutions.py`, `postprocessing.py` | pipe profiles, inflow, walls, shear layers, cells of cavity and channel, Poiseuille profile, vorticity; rounding as in Python; arrays as functions |
| OldroydB | oldroydb.py | C72 |
| SimplexProjection | phasefield/simplex_projection.pyx | C71 |
| WallFunctions | boundaries/wall_function_models.py, boundaries/boundaryconditions.py (WallFunctionBounce) | C57 |
| Config | creationfunctions.py (configuration, choice of method, additions and kernel), enums.py | C56 |
| Corrections | galilean_correction.py, fourth_order_correction.py | C55 |
| CumulantMethod | cumulantbasedmethod.py, forcemodels.py (symmetric forcing) | C54 |
| Matching | maxwellian_equilibrium.py, equilibrium/generic_discrete_equilibrium.py | C50 |

## Properties and method of proof

| id | what is modelled | how proved |
|----|------------------|------------|
| C01 | all accessors of `fieldaccess.py`, `get_accessor`, kernels as sweeps | simulation relation: `read(t+1)(x) = write(t)(x-c)`; induction over steps |
| C02 | in-place sweep as a fold over cells | locations of cell x read = written, disjoint for different cells ⇒ updates commute ⇒ permutation invariance |
| C03 | two-array sweep | injectivity of the write map |
| C04 | collide-only + stream-only kernels | induction, conjugation by streaming |
| C05 | total over a finite group of cells | corollary of C01, reindexing sums |
| C06 | `is_inplace`, `get_accessor`, `Timestep` | case analysis; negative theorem for `_get_lehmann_stencil` |
| C07 | `BetweenTimestepsIndexing` tables, trivial translations, proxies | table look-up lemma over all directions |
| C08 | NoSlip kernel as fold over links | location injectivity |
| C09 | fluid set + links + pattern | invariant over steps |
| C10 | mirroring, FreeSlip rule & init callback | involution, membership |
| C11 | periodic accessor arithmetic | modular arithmetic, bijection |
| C12 | slices of `get_communication_slices` per direction | interval arithmetic; correct for one ghost layer, negation for two |
| C13 | all tables | `decide` over the complete tables, general law for `inverse_index` |
| C14 | constructor, `__eq__`, `__hash__` | soundness; negation for hash with witness |
| C15 | recursive enumerations | induction over dimension/order |
| C16 | representatives | negation with witness, partial theorem for collections closed under permutation |
| C17 | aliasing | parity argument per component, induction over components |
| C18 | Gram-Schmidt loop over an inner product | induction; negation: dependent last vector is accepted |
| C19 | collision in matrix form | linear algebra over any field |
| C20 | weights, equilibrium | isotropy of the weights by kernel computation over the tables, then finite sums and `ring` |
| C21 | setter/getter pipeline | corollary of C20 with velocity shift |
| C22 | generated equations (list of plus/minus terms, shared velocity terms) | coefficient form, value of substitution |
| C23 | force terms | finite sums + `ring` for each stencil's weights via isotropy hypotheses |
| C24 | formulas | `field_simp`, inequalities |
| C25 | formulas, setters as state machine | field algebra, invariant over op list |
| C26 | Welford update | induction over the history |
| C27 | solid collision loop | sum reindexing by the inverse direction |
| C28 | formulas over the reals | inequalities |
| C29, C30 | formulas | field algebra, inequalities |
| C31 | index-data update as a state machine | induction over history |
| C32 | mapper as list operations, sparse kernel | sorting and search lemmas, simulation of the dense step |
| C33 | decision function with an iterator over rates | induction over groups |
| C34 | fold with a dictionary | invariant of the fold |
| C35 | recursion over dimensions with a dictionary of partial sums | every entry is determined by its key and reads earlier entries; binomial theorem; linear functional on polynomials for the inverse |
| C36 | affine change of variables | induction over steps |
| C37 | rewriting loop with a default dictionary | invariant of the loop, execution of assignments |
| C38 | parity split | linear algebra |
| C39 | set partitions | shuffle algebra: exponential and logarithm as characters; derivatives over ℝ |
| C40–C42 | small state machines | induction over call histories |
| C43, C44 | force on the boundary, free-slip channel | sums over links, invariant over steps |
| C45 | anti-bounce-back rules | formulas, negation with witness |
| C46 | index/exponent conversion | list induction |
| C47 | default and literature moment sets | certified inverse matrices checked by the kernel |
| C48 | classification functions | characterisation of the accepted polynomials, negation with witness |
| C49 | generating functions and their derivatives over ℝ | Gaussian integrals, exponential families, polynomial truncation |
| C50 | inverse moment matrix | explicit left inverse (Lagrange polynomials) on full stencils; homogeneous parts |
| C51 | symbolic differentiation of expressions, constructor | expressions denote elements of the shuffle ring, differentiation is the derivation; sets by kernel computation |
| C52 | matrices as functions of the velocity | divided derivatives of the offered moments are combinations of moments of lower degree on the velocities (certificates checked by the kernel), Taylor's formula |
| C53 | collision rule over C52 | central moments after collision, uniqueness from regularity |
| C54 | collision over C51 | central moments after collision; shuffle algebra for the cumulants of a Gaussian; sets by kernel computation |
| C55 | correction terms as functions of the cumulants; corrected collision over C54 | algebra; reduction to C54 with recast equilibrium |
| C56 | `__post_init__` as a function of the parameters; decisions of the creation functions | case analysis against a rule per derived parameter |
| C57 | wall laws as functions with their domain, Newton iteration with `deriv`; drag and rule over the model of C07–C10 | tangent inequalities, monotone convergence; for Musker's law concavity from a polynomial bound on the numerator of the second derivative (Props/Musker); sum over the velocity set; simulation lemma of C08 |
| C58 | update expressions as tables of coefficients in the two rates; rates and Newton steps as exact arithmetic with division by zero as no value | concave parabola has one maximum; polynomial derivative |
| C59 | amplitudes with domain of the root, consumption of random numbers, rule as function of populations and random numbers | Mathlib covariance and independence; M W Mᵀ = N ⇒ M⁻¹ N M⁻ᵀ = W; existence of the sample space shown |
| C60 | value of the assembled expressions; Laplacian and gradient as arguments; executed assignments of the sub-iterations as a growing list | derivative of tanh, improper integrals of nonnegative derivatives, iteration of the velocity map |
| C61 | branch, root and domain of the square root as in the kernel | root of a quadratic; derivative of the profile along the wall normal |
| C62 | chain of divisions and roots with exceptions | algebra, positivity |
| C63 | values of the symbolic energies as real functions of order parameters and gradients; differentiation of the bulk part by Mathlib's `deriv`; symbols found by name as a sorted list | symmetric double sums over phases; derivative of tanh; improper integrals |
| C64 | terms of the energy as lists of factors; tensors over a commutative algebra with commuting derivations | Leibniz rule, reindexing of double sums |
| C65 | values of the expressions; bisection with the solver and the integral as arguments (relation for runs) | calculus in one variable; bisection invariants, halving |
| C66 | equilibrium as list over the stencil, method through the moment collision with one rate, `step` on periodic-free fields | isotropy of the weights; single rate collision is BGK; stationary state given explicitly |
| C67 | `sp.solve` by the equations it solves; subsets as `combinations`; energies as real functions; coefficients of the correction as arguments | bordered matrix, inverse; iterated differences; derivatives with absolute values; integral over the tanh profile |
| C68 | populations with values in a commutative algebra with derivations for each scale; expansion in eps as functions of the power; stress tensors as polynomials in symbols for the velocity gradient | Taylor formula for polynomials; moments of the equations; elimination of time derivatives; linear forms and their coefficients |
| C69 | populations in a module with linear maps for transport and collision that need not commute; hierarchy by well-founded recursion | strong induction; degree filtration; Taylor formula in several variables; power series |
| C70 | arrays over the integer lattice; generated code as accesses plus list of conditionals; box with a ghost layer | slots of different cells are disjoint because the write slots are a bijection; induction over cells, then over steps |
| C71 | cells as functions of the phase, mask as a Boolean per phase handed from cell to cell, division by zero as `none` | ghost set of the phases handled in this cell; constant shift plus cut-off characterises the nearest point |
| C72 | stresses as real matrices on an additive group of cells, staggered storage with access through the neighbour, nested conditionals as folds | matrix algebra; sums over directions against the isotropy of `d d / norm d`; polynomials by coefficients |
| C73 | pipe and channel set-ups, masks as predicates, boundary flags as last writer | closed form of the profile; rounding by cases modulo 4; unique solution of the ODE by constancy of functions with zero derivative |
| C74 | symbols and dependencies of a rule, dictionary as list in order of insertion; loops over lines as folds that store the slots of a group | invariant: slots of the groups done hold the result, the others the old value; opposite directions share their slots |
| C75 | `split` threads the dictionary of coefficients through the recursion | invariant: known coefficients have one symbol each and their value unless being split; no coefficient being split is asked for in at most three dimensions; binomial theorem and square matrices for the inverse |
| C76 | equilibria are `MvPolynomial`s in the velocity, the result a dictionary filled direction by direction | coefficients recovered by evaluation at 0, at the direction, and at a perpendicular vector; invariant of the dictionary; third differences for the cubic terms |
| C77 | FdStencils | linearity reduces a polynomial to monomials, finitely many exponents below the degree bound are compared with the derivatives by field_simp/ring |
| C78 | PostProcessing | Heron's factorisation gives the sines; cos of a sum of two angles and monotonicity of arccos give the third |
| C79 | PostProcessing | both circles hold iff the point lies on the radical line and a square equals Heron's radicand; cotangent monotone for the lens; case analysis on infinities |
| C80 | PostProcessing | crossing computed by field_simp, position by the parameter of the segment; witnesses by kernel computation over the rationals; argmin by induction |
| C81 | PsmKernel | induction over the blocks: each overwrites the destination from an unchanged source; in place the second block starts from the result of the first |
| C82 | CopyBoundaries | the incoming population of the link is the outgoing one of the boundary node, so all stores go to boundary nodes and all loads to fluid cells; then a list of stores with values from the old array |
| C83 | BoyerCoefficients | Schur complement: a kernel vector of the block of `alpha` outside the triple would give a kernel vector of the 3x3 bordered tension matrix, whose determinant is the discriminant; then termwise derivatives of the polynomial energy on the face of the simplex |
| C84 | Simplify | the old solution solves the new equations; execution in order is the only solution |
| C85 | HeatSolver | the stages in closed form; exactness of the weights on affine functions; kernels that do not differentiate what they write do not depend on the order |
| C86 | Microchannel | functions `(p + q y) cosh + (r + s y) sinh` are closed under derivatives; wall and interface conditions are identities in `sinh`, `cosh` |
| C87 | HighDensityRatio | `(psi - psi0) / r` has the derivative `(p - p0) / r²`, whose sign is known from the isotherm |
| C88 | PhaseKernels | summation by parts on a periodic grid: central differences are antisymmetric, second differences symmetric, and they commute |
| C89 | IterativeInit | momentum of the collision from C19 and C23, induction over steps; geometric sequences; case analysis of the loop |
| C90 | GhostLayers | number of ghost layers up to date as a Hoare logic; simulation of the periodic grid; kernels in any order by induction over the cells |
| C91 | `Model.fns`, `Model.program` | kernels on a window equal kernels on the grid; each part of the step changes totals by its own law; C90 carries it to arrays with ghost layers; collisions by C23_predefined and C66_conservation |
| C92 | `Model.fns`, `Model.program`, `project` | C90 carries the step to the periodic grid; derivatives of the energy by symmetrisation of sums; conservation by shifting sums; planar interface by derivatives of tanh; C71 for the projection |
| C93 | `laplacianSymbolic`, `isotropicGradientSymbolic` | Taylor expansion: a difference on a polynomial is determined by the moments of its weights; moments of all predefined stencils by kernel evaluation; uniqueness by linear systems over classes of mirrored directions; symmetry by shifting sums |
| C94 | CentralTransforms, Chimera, CentralMoments | shift matrix of a downward closed set is the binomial matrix; background as the moments of some populations; finite check of the offered sets, independent of their order |
| C95 | HeCentral, ForceModels, CentralMoments | integration by parts for normal distributions; the shift matrix of a set whose span does not depend on the origin shifts every family of raw moments; finite check of the offered sets; last row of the shift matrix of D3Q15 |
| C96 | SymbolicForce | A sorted list of assignments to different symbols solves its equations; the dictionary has one entry per component that is not a symbol |
| C97 | RawTransforms, CentralTransforms, Chimera | Reduced polynomials equal the given ones on the stencil; matrix of coefficients times moment matrix of the monomials is the moment matrix; finite check of the offered sets |
| C98 | GpuCopy | invariant of a prefix of the schedule: stored cells hold the original contents of their sources, loaded registers too; slices of the handling are in bounds and disjoint by cases on direction and write offset |
| C99 | CentralForcing | C52 turns shift matrix times moments into central moments; moments up to second order from C23; binomial expansion about the velocity |
| C100 | CompiledMacro | write accesses of a pattern are injective on slots (StepFacts), so a sweep in any order stores each cell's equilibrium; the getter uses the same accesses; C21 per cell |
| C101 | StrainRate | accesses from StepFacts (an in-place pattern writes where it read the opposite direction); an exact steady linear flow is constructed, its deviation from equilibrium has second moments by fourth-order isotropy |
| C102 | EdmSubst | substitution lemma: sequential replacement evaluates at symbols updated from the last to the first; simultaneous if no inserted expression mentions a later symbol |
| C103 | SparseBoundary | index of every accessed cell found because the cell is active; representation invariant through single updates; bounce back: closed form of the array after all links, then case distinction on the upstream cell |
| C104 | OutflowInit | induction over the links with the access facts of C01; steady state from C31_outflow_history; values by reduction to the setter of C21 with a changed density |
| C105 | LbSimulation | invariant: stored populations of flow cells are the reference flow; one step by the semantics of boundary kernel (C08) and sweep; mass by a permutation of pairs (cell, direction); reported values by the moments of the collision (C23) |
| C106 | LbSimulation, HydroMethods | sums of populations by the component normal to the plates obey a recurrence over the rows; its solution is unique; moments of the collision from C19 and C23; existence by an explicit flow and the closed form of the rule (C38) |
| C107 | LbSimulation, BoundaryRules | the recurrence of C106 with what the plates add; half sums of the weights from fourth order isotropy, the indicator of a direction being a polynomial |
| C108 | VelocityInput, BoundaryRules (`diffusionDirichletRule`), LbSimulation | parts of the mass by normal velocity satisfy the two-term recursion of C106 with the walls as sources; moments of the rule from the even/odd decoupling of C38; existence by the explicit state `w (p(y) - γ c_b)` |
| C109 | VelocityInput, BoundaryRules, LbSimulation | `Σ (f - w c)²/w` does not grow: even and odd parts are relaxed apart and streaming permutes links; convergence by the invariance principle of LaSalle on the finitely many cells, states that keep their distance are uniform on connected parts; existence of steady states from injectivity of the linear part of a step |
| C110 | LbSimulation, BoundaryRules, MomentMethod | the equilibrium of first order is an orthogonal projection for `Σ f²/w`, streaming with bounce back permutes links; for the alternating momentum each link carries the weight `(-1)^{x_b} c_b`, which changes its sign both when a link goes to the next cell and when it is reflected |
| C111 | `convert` on `MvPolynomial`, `hydrodynamicMomentValue` | linearity, then monomial by monomial; uniqueness of the polynomial of a moment by `MvPolynomial.funext`; moments of the equilibria as `rho * P(u) + c` |
| C112 | TakeMoments | invariant of the loop: the value of its variables is the product of the factors so far; derivatives are linear over the constants, so that the sum over the directions goes inside |
| C113 | NavierStokesMatch | with constant coefficients a polynomial is the sum of its coefficients at single derivatives; the loop over the atoms adds each to the row once, whatever the order; derivations evaluate products |
| C114 | ZeroConditions | substituting zero is evaluation with the symbol set to zero; the measure is the number of symbols in conditions at any depth, because collapsing a `Piecewise` may show conditions of its branch |
| C115 | ChainSolve | substituting values that agree with the dict keeps the value of an equation; induction over the equations for all dicts |
| C116 | CopyKernel | a fold of updates with values of the source needs no distinct accesses; the rest is the chain of write and next read (`StepFacts`), and a finite set is not closed under a shift |
| C117 | DomainSize | `a ≤ x^(1/d) ↔ a^d ≤ x`; lists of characters for the unit |
| C118 | MomentShift | equations that do not read each other can be read off after the run; the density is assigned first |
| C119 | BulkInterface | substituting zero for gradients is evaluation with gradients zero (induction) |
| C120 | Concentrations | reading after writing is the composition of the two conversions |
| C121 | InitialProfiles | `tanh a + tanh b = sinh (a+b) / (cosh a cosh b)`; `1 - tanh a ≤ 2 exp(-2a)` |
| C122 | DiscreteEntropy | `log x ≤ x - 1` per term; Taylor remainder of the logarithm |
| C123 | CeSubst | substitution lemma: replacing leaves changes the valuation |
| C124 | HigherOrder | the inner loop ends with `order` at its old value; substitution lemma of C123 |
| C125 | DerivExpansion | substitution lemma; the last term of the series cancels |
| C126 | EqualityTable | permutations of the descending tuples are all tuples, each once (C15) |
| C127 | MaskedSlice | the source of index `f` of the repeated mask is `f / components` |
| C128 | ImageMask | the rounded size is at most the target since the factor is the minimum; the shifts cancel |
| C129 | ScalingWidget | from the settled form outwards, one changed field at a time |
| C130 | DropSetup | the calls written as cases, cell by cell |
| C131 | InsertSubexpressions | a substituted symbol has the value of its expression at every later point |

## Where code and claim disagree

Each entry with a theorem name is proved in Lean; the others were found by reading and are recorded only.

* `_get_lehmann_stencil` never raises: esopull/esopush accept stencils whose rest velocity is not first and mistranslate
  them (`C06_rest_not_first_mistranslated`).
* `_get_neighbour_transform` is wrong for more than one ghost layer (`C12_two_ghost_layers_wrong`).
* `LBStencil`: equal stencils can have different hashes (`C14_eq_hash_contract_violated`); an empty tuple raises
  `IndexError`.
* `moment_permutations(())` is empty (`C15_empty_tuple`).
* `pick_representative_moments` can drop a whole class (`C16_class_lost`).
* `gram_schmidt` does not notice that the last vector depends on the others (`C18_last_vector_unchecked`).
* `set_zeroth_moment_relaxation_rate` adds a moment when 1 is not among the moments (`C19_set_zeroth_rate_adds`).
* D3Q7 weights are not isotropic to fourth order (`C20_D3Q7_not_fourth_order`); `get_weights` has no entry for D2V17 and
  D2V37 (`KeyError`).
* Second moments returned by `output_equations_from_pdfs` of zero-centred methods are those of the absolute populations,
  zeroth and first moments are not (`C22_output_moments`); sets without a unit velocity raise `AttributeError`
  (`C22_no_unit_velocity`).
* Force models: the correction ignores the fraction field (`C23_fraction_field_loses_force`); He differs between
  population and moment space for one rate (`C23_he_spaces_differ`); ShanChen's coefficient differs from the cited paper
  (`C23_shan_chen_original`).
* Partially saturated cells: option 3 with a force model applies the force twice, option 2 uses the first relaxation rate.
* Turbulence: QR is 0/0 at equilibrium (`C28_qr_undefined_at_equilibrium`), Casson is NaN below the yield stress
  (`C28_casson_undefined`), a model constant 0 is replaced by the default (`C28_constant`),
  `extract_shear_relaxation_rate` accepts anything that is not a python number (`C28_extract_accepts_any`); the `elif` of
  cassons in `create_lb_collision_rule` belongs to the `split_groups` condition.
* Bouzidi depends on the order of links at thin fluid gaps; `QuadraticBounceBack` with its default distance is not no-slip
  (`C29_quadratic_default_is_not_no_slip`).
* UBB treats density 0 as not given (`C30_ubb_density_zero_ignored`).
* Sparse: cells with both flags (`C32_both_flags`), vectorised lookup of unknown cells (`C32_bulk_silent`), obstacles across
  a periodic border (`C32_wall_across_border`), `collide_only` (`C32_collide_only`), layout AoS (`C32_aos`); the documented
  `ValueError` is an `IndexError`.
* Relaxation rates: unbound `shear_rr` (`C33_unbound`), D3Q7 needs an unused third rate (`C33_D3Q7_third_rate`), a single
  rate is unused in 1D (`C33_one_dimension`), `get_order` is the degree of the lexicographically leading monomial
  (`C33_order_not_degree`).
* User symbols named `rr_0` collide with generated ones (`C34_name_collision`).
* Names of statistical quantities are digit strings: exponents from 10 on collide (`C35_name_collision`); velocities beyond
  ±1 are dropped by the chimera (`C35_far_velocities_dropped`); the binomial chimera reads lower monomials that nobody
  requested (`C35_needs_lower_exponents`); `central_moment_reduced_monomial_to_polynomial_matrix` makes 3-tuples in 2D,
  on which the binomial chimera raises `IndexError` (`C35_tuple_too_long`).
* `split_pdf_main_assignments_by_symmetry` extends the subexpression list of its argument (`C37_input_modified`) and changes
  the meaning of main assignments that read each other (`C37_chained`).
* `discrete_cumulant` of an unexpanded polynomial silently yields the zeroth cumulant.
* Boundary handling: the time step marker stays set after an exception (`C40_marker_stuck`), the default time step `BOTH`
  raises `IndexError` for in-place patterns (`C40_both_inplace`).
* `compute_residuum` only uses the last block of a process (`C42_residuum_last_block`); `AssertionError` when fewer steps
  than one check interval are allowed.
* In zero-centred storage the output `moment0` is that of the stored deviations but `moment2` that of the populations
  (`C22_output_orders_disagree`).
* DiffusionDirichlet with a velocity field uses 1/3 for the speed of sound (`C45_dirichlet_with_velocity_wrong`).
* `is_bulk_moment` accepts x²+y²+xy (`C48_mixed_term_is_bulk`); tuples as arguments raise `TypeError`.
* Recorded only: `LbBoundary.__eq__` is asymmetric; `mirror_axis` assertion off by one; `check_and_set_mrt_space` has no
  effect; property `LatticeBoltzmannStep.config` recurses; an unknown `time_step_order` leaves `_lbmKernels` undefined;
  `LatticeBoltzmannStep` does not check the streaming pattern of its configuration; `add_sphere` is 2D only;
  `conserved_moments` is dropped with a fraction field; NeumannByCopy and StreamInConstant write one value twice at thin
  walls; `monomial_to_polynomial_transformation_matrix` overwrites entries when truncation merges monomials.
* `set_up_shift_matrix` checks the diagonal only through the trace. For the D2Q9 moments `1, x, y, x², xy, y², x²y, xy⁴, x²(2y²-y⁴)` (sorted
  by degree, a basis) both assertions hold although the diagonal contains `1+6v²` and `1-6v²`, and the matrix is singular for
  `v² = 1/6` (`CentralMoments.Witness.C52_assertion_too_weak`).
* Recorded only: `CentralMomentBasedLbMethod.shift_matrix` always uses the symbols `u_0, u_1, u_2`; with other velocity symbols in the conserved
  quantity computation the central-moment force terms refer to symbols nobody assigns.
* `get_fourth_order_correction_terms`: the corrections of x²y² and y²z² contain the derivatives along x and z instead of z and x, so that a
  flow varying along x only gets different corrections of x²y² and x²z² (`C55_fourth_order_not_covariant`). `cor2` should contain
  `-2 Dx + Dy + Dz`.
* The limiters of the fourth-order correction look at the cumulants xy², xz², xyz only (`C55_limiters_not_covariant`).
* The assertions ω₁ ≠ ω₂ and ω₁ > 7/4 of `get_optimal_parametrisation_with_limiters` are commented out; without them the parameters a, b are a
  division by zero for ω₁ = ω₂ (e.g. both 1) and ω₄ is negative for 14/9 < ω₁ < 7/4 (`C55_rates_unchecked`).
* Missing polynomials: the message joins sympy expressions, so `TypeError` is raised instead of `ValueError`; the `except IndexError` around
  dictionary accesses never applies (`C55_galilean_exceptions`, `C55_fourth_order_exceptions`).
* Every `create_*` function runs `dataclasses.replace` on the configuration and with it `__post_init__` a second time. Derived values are then
  taken for given ones: a changed `force` is ignored once a force model exists, a changed `relaxation_rates` is ignored if the configuration has
  a single rate or none, and a changed method is refused because of the collision space derived before (`C56_force_change_ignored`,
  `C56_rates_change_ignored`, `C56_update_not_fresh`).
* Fluctuating or entropic methods in central moment or cumulant space are accepted by the constructor (space: populations) and refused by all
  creation functions (`C56_accepted_then_refused`).
* With partially saturated cells the default force model gets the force, a named force model gets (1 - B) times the force
  (`C56_psm_force_differs`); `self.force` itself gets another factor (1 - B) on each `replace`.
* The stencil check of the fourth-order correction uses `and` instead of `or`: D3Q19 passes it (`C56_fourth_order_stencil_check`).
* `builtin_periodicity` is silently ignored for all streaming patterns but `pull` (`C56_kernel`); unknown keys of the dictionary `optimization`
  are silently dropped and the `KeyError` for them is dead code (`C56_optimisation`).
* `lbm_config.relaxation_rates.append(1)` fails for tuples and changes the list of the caller; the key `'schiller'` of the force model table
  cannot be reached. Not modelled.
* C57: `WallFunctionBounce` on a fluid at rest produces NaN: the implicit laws start at `u/100 = 0` and divide by it (`C57_rest_undefined`), and the
  direction of the stress is `u/|u|` (`C57_wall_stress_undefined`). A target friction velocity above the solution can make the log law fail
  (`C57_log_law_target_fails`). The mean velocity is read `shift` cells away from the first fluid cell, but the law is evaluated at the distance
  `shift - 1/2` (`C57_mean_velocity_distance`). Without a mean velocity the populations are sampled at a cell that depends on the streaming
  pattern and the link and not on `sampling_shift` (`C57_pdf_sample_pull`); with push the arrays needed do not exist (`C57_pdf_sample_push`).
  The argument `y` is never used; `shift - dy/2` mixes units when `dy ≠ 1`. Musker's law is modelled, its convergence is not proved.
- **C58** (entropic.py). In a cell at equilibrium the explicit rate is 0/0 (`C58_equilibrium_undefined`): a simulation initialised with the
  equilibrium starts with NaN. With a force model that adds a term to the populations ("simple", "luo", recommended by the docstring) the
  explicit rate does not maximise the entropy of the result (`C58_forced_not_maximal`). A TRT rule with the odd rate as free rate fails with an
  assertion, because the rest population does not depend on it (`C58_trt_refused`). The iterative procedure collects powers of the free rate
  until the first that is missing and silently drops the rest (`C58_iterative_gap`). With zero iterations the free rate stays a free symbol
  (`C58_iterative_degenerate`).
- **C59** (fluctuatinglb.py). The check of the arguments, `not (temperature and not amplitudes) or …`, refuses every call with amplitudes
  although the message offers them, and a temperature of zero (`C59_amplitudes_refused`). Rates above 2 of fluctuating moments give roots of
  negative numbers (`C59_defined`). The configuration parameter `temperature` of `LBMConfig` (`creationfunctions.py:265`) is read nowhere.
- **C60** (kernel_equations.py:104-107). The viscous force multiplies the second moment of the non-equilibrium populations by `1/2 - tau`; the
  relaxation rate that turns this moment into the strain rate (as in `strain_rate_tensor_getter`) is missing, so the force is `tau` times the
  viscous stress against the density gradient (`C60_viscous_force_partial`, `C60_viscous_force_wrong`). `interface_tracking_force` takes
  bulk values of the phases but does not scale with their difference (`C60_tracking_levels_partial`). The initialiser shifts the velocity by
  half the force without dividing by the phase field, unlike the method (`C60_initial_velocity_partial`). `sub_iterations=0` is an
  `IndexError`. `hydrodynamic_force_assignments` takes the velocity equations as everything after the first main assignment; for a compressible
  zero-centred method the sorted list has the density there (not modelled: the model takes the velocity equations as given).
- **C61** (contact_angle.py). For interfaces narrower than twice the link the selected root need not be the physical one: width 1 and angle 0 turn
  the light bulk phase into the heavy one (`C61_narrow_interface`).
- **C62** (parameter_calculation.py). `calculate_parameters_rti` takes Atwood number and density ratio independently; `calculate_parameters_taylor_bubble`
  computes the light density without `density_heavy`; `calculate_parameters_droplet_migration` does not pass on `interface_width` and
  `reference_surface_tension`, so with the default arguments the mobility is computed for width 4 and the simulation runs with width 5.
- **C63** (analytical.py). `chemical_potentials_from_free_energy` without order parameters drops the symbol of the greatest name, although the
  free energy of N phases has only N-1 symbols; the assertion on the tension of a phase with itself does not look at the last phase; the correction
  function with an odd power rewards negative parts.
- **C64** (analytical.py, kerneleqs.py). `pressure_tensor_bulk_sqrt_term` takes the root of the absolute value, so where the bulk pressure exceeds
  the ideal pressure the bulk acts with the opposite sign. `extract_gamma` asserts a sum, so an energy with a single term raises an
  AssertionError. `pressure_tensor_kernel_pbs` passes `transformation_matrix` where the bulk chemical potential is expected (harmless only because it
  asserts that it is None).
- **C65** (eos.py). The Carnahan-Starling critical temperature is rounded down (0.3773 for 0.377315), the isotherm there is not monotone;
  `maxwell_construction` raises IndexError near the critical temperature, because the first shift is half of the greatest pressure and may have
  a single volume; tolerance 0 raises NameError (the loop is never entered).
- **C66** (cahn_hilliard_lbm.py, creationfunctions.py:192-205). `create_from_equilibrium` accepts only a Symbol, float or int as single
  relaxation rate; an expression (`1/tau`) or `Rational` is treated as a dictionary and raises TypeError. On D3Q7 the equilibrium has no mixed
  products of the velocity in its second moment (the stencil has no diagonal directions).
- **C67** (n_phase_boyer.py). `cahn_hilliard_fd` (151-157) uses the whole vector `alpha * mu` in the equation of every phase instead of its
  entry (not modelled, the discretisation belongs to pystencils).
- **C58** (entropic.py:232-252). `relaxation_rate_factors` stops at the first power of the free rate that is absent. A term of a higher power
  behind the gap is silently dropped, and the rule is accepted as linear (`C58_explicit_gap`). No rule built by the library has such a gap.
- **C68** (chapman_enskog.py:160-167). `get_bulk_viscosity` returns the coefficient of `div u` on the diagonal *plus* two thirds of the shear
  viscosity. With the sign convention of the tensor it has to be two thirds *minus* the coefficient. The value is right only if both rates agree
  (`C68_bulk_viscosity_wrong`, `C68_method_bulk`). This may be the reason for the question in the docstring of `determine_viscosities`
  (chapman_enskog_steady_state.py: "The bulk viscosity is predicted differently ... why??").
- **C68** (chapman_enskog.py:112-139). `does_approximate_navier_stokes` compares only coefficients that occur; a tensor with
  `sigma_ii = -2 k1 d_i u_i`, `sigma_ij = -k2 (d_i u_j + d_j u_i)`, `k1 != k2` meets all conditions but is anisotropic (`C68_conditions_incomplete`).
- **C68** (chapman_enskog.py:461-462, latent). `remove_higher_order_u` filters `expr.args`, which are factors if the expression is one product
  (`C68_single_product`). The tensors of the library's methods have more than one summand.
- **C69** (chapman_enskog_steady_state.py:270-310). `determine_viscosities` returns 5/3 of the shear viscosity as bulk viscosity; the method has 2/3 of
  it. The docstring asks why. In a steady state the momentum is free of divergence to the order in which the terms are compared, so that the
  coefficient of its gradient means nothing (`C69_viscosities`, `C69_bulk_viscosity_undetermined`).
* **C70** `update_rule_with_push_boundaries` uses one field for loads and stores. With its default `streaming_pattern='pull'`,
  `timestep=Timestep.BOTH` (and with `'push'`) no error is raised, but cells overwrite what other cells have yet to read
  (`C70_two_array_patterns_race`). `direction_indices_in_direction` compares the components with ±1 and misses the longer velocities of
  D2V17 and D2V37 (`C70_long_velocities_missed`).
* **C71** `simplex_projection.pyx` sets `handled_mask = 0` once, before the loops over the cells. Phases marked in one cell take no part in
  the distribution in any later cell, so the result of a cell depends on the cells visited before (`C71_mask_not_reset`); after two pure
  cells of different phases negative concentrations are cut off and the rest rescaled (`C71_two_pure_cells`).
* **C72** `ForceOnBoundary.__init__` calls `super(ForceOnBoundary).__init__(name)`, which initialises the unbound `super` object and raises
  a TypeError for every name that is no type, the default included (`C72_force_on_boundary_raises`; checked with a Python interpreter on a
  two-class example). What its kernel would add up is the reaction to the force on the fluid only for nearest-neighbour faces, as the
  factor `2 dim / (A0 |d|)` of `force` is missing (`C72_reaction`, `C72_reaction_fails`).
* **C73** `int(round(n / 2))` rounds halves to even: for odd extents the analytic profile is not symmetric, and for `n = 4 m + 1` the velocity in the last row has the wrong sign; `add_pipe_walls` uses `n // 2` instead, which is another centre for `n = 4 m + 3`, and for odd square cross sections its walls are not symmetric. The 2D branch of `add_pipe_inflow_boundary` shifts by the radius (line 76) instead of the middle: with a diameter callback narrower than half the channel the prescribed velocity in the middle is negative. `create_channel(pressure_difference=p)` sets densities `1 + p` and `1`, a pressure difference of `p / 3`. `add_sphere` has a callback with two coordinates only: `TypeError` in 3D. One row of cells gives radius zero.
* **C68** `does_approximate_navier_stokes` treats an empty set of bulk candidates, which `get_bulk_viscosity_candidates` returns when the
  diagonal of the stress has a contribution without a derivative of the velocity, as no condition; it reports that the method
  approximates Navier–Stokes while `get_bulk_viscosity` raises (`C68_conditions_miss_diagonal`).
* **C74** Nothing prevents `split=True` with an in-place pattern. The later loops of a split kernel read slots that earlier loops have
  overwritten unless a direction needs only its own and the opposite population besides the pre-computed quantities
  (`C74_inplace_needs_condition`); this holds for SRT and TRT, not for MRT rules in population space. With `opposing_directions=False`
  the other written fields are in two groups (`C74_separate`). `post_collision_pdf_symbols[1:]` takes the rest population to be the first.
* **C75** The memoisation enters a coefficient into the dictionary before it is split. In up to three dimensions this is harmless (`C75_values`), in four dimensions the recursion can meet the unfinished coefficient again and the generated assignments are cyclic (`C75_four_dimensions`). lbmpy has no such stencil. Directions with components other than -1, 0, 1 raise a `KeyError` (`C75_long_links`); the documentation names only D2Q9, D3Q15, D3Q19 and D3Q27.
* **C76** `match_generic_equilibrium_ansatz` tells coefficients apart by the L1 norm of the direction (`np.abs(direction).sum()`), not by its length. On D2V37 (1,1) and (2,0) get the same symbols, so an equilibrium with the correct, different weights is refused (`C76_speed_clash`, `C76_d2v37`). `generic_equilibrium_ansatz_parameters` lists `B_0` and `C_0` as degrees of freedom though they do not occur in the ansatz; the matching does not return them.
* **C77** `fd_stencils_isotropic_high_density_code` returns `(3 f_ii + f_jj)/4` for the second derivative `f_ii` (witness: `y²` has `f_xx = 0`, the stencil gives 1/2). The sum of both directions is a consistent Laplacian, so the defect cancels as long as only Laplacians are taken. The error of that Laplacian is `dx²/12 (∂₀⁴ + ∂₁⁴ + 3 ∂₀²∂₁²)`, no multiple of the bi-Laplacian, so the name *isotropic* holds for the gradient only.
* **C79** `circle_intersections` divides by the differences of the coordinates. With equal ordinates everything becomes not-a-number although the circles meet; with equal abscissas only touching circles are affected, crossing ones survive since `-1 / inf` is zero. `liquid_lens_neumann_angles` sorts the circles by height, so the first angle belongs to the phase above the lens, not to `enclosing_phase1` as documented: exchanging the phases changes nothing.
* **C80** `find_intersections` filters abscissas and ordinates by separate conditions with half-open ranges. A horizontal segment never yields an ordinate, a vertical one never an abscissa. The lists get different lengths (an error in `np.array`) or, worse, halves of different crossings are paired (witness: the point (1, 1) on neither path). `get_triple_point_centers` returns `np.array([[], []])`, whose length is two, so the emptiness test of `get_triple_points` fails and the broadcast raises.
* **C81** `create_psm_update_rule` emits one independent `if` per particle number, not an else-chain. With two arrays the last block overwrites the others, with in-place streaming every block collides again (witness with two particles). Forces of particles that left the cell stay in the force field, while the unconditional kernel would write zero. Cells with positive total fraction but no positive individual fraction are not updated at all.
* **C82** `NeumannByCopy` stores to `f_in(inv_dir)` and to `f_out[c_d](d)`; for two fluid cells facing each other through a one-cell-thick wall these are the same two entries, so that the link processed last wins (C82_thin_wall). With `push` the second store lies two cells outside the fluid, which a field with one ghost layer does not have (C82_halo).
* **C83** No disagreement for regular triples. `capital_theta` and `capital_lambda` return the unsolved symbol (not an error) where the system is singular (discriminant of the three tensions zero, which is the border of complete spreading); `cahn_hilliard_fd` (lines 150-157) then uses the whole vector `alpha * mu` on the right-hand side of each equation, which is outside the model.
* **C84** `cse_in_opposing_directions` runs over `zip(update_rules, stencil)` and returns only what it has visited.  With `output` (or an omega output field, or particle forces of partially saturated cells) the collision rule has more main assignments than populations, and with `cse_pdfs=True` these are silently lost (`C84_cse_drops`): the output fields are never written.
* **C84** Applying `replace_common_quadratic_and_constant_term` to a rule that has been simplified before defines `f_eq_common` a second time (`C84_common_twice`).
* **C85** With three Runge-Kutta fields the last kernel adds `(rk_update - update_stage_4) / 6`, so the last stage is subtracted: `T + (k1 + 2 k2 + 2 k3 - k4) / 6`.  The weights sum to 2/3 and the method is inconsistent (`C85_three_fields`, `C85_transport`, `C85_growth`): a temperature that is affine in space is transported by two thirds of the distance.  Two fields raise IndexError.
* **C86** With `transpose=False` the coordinate arrays keep the shape `(length_y, length_x)` of `np.meshgrid` while velocities and temperature have the shape `(length_x, length_y)` (`C86_arrays`).  A `reference_length` from 2 to 3 raises ZeroDivisionError (`C86_errors`).  The parameter `reference_surface_tension` is used as the derivative of the surface tension with respect to the temperature (`C86_flow`).
* **C88** The force kernel that uses chemical potentials adds momentum to a closed system: on a ring of three cells with the bulk energy `phi^4` the total force is not zero (`C88_mu_bulk_wrong`).  The gradient terms and the kernel that uses the pressure tensor add none.
* **C89** `create_advanced_velocity_setter_collision_rule` keeps the force terms of the method but prescribes the momentum `ρu - F/2`. On a uniform domain the velocity then converges to `u + F/ρ (1/ω - 1/2)` (Guo, He, Buick, Shan-Chen) or `u + F/(ρω)` (Simple, Luo, EDM), so `run_iterative_initialization` does not converge to the prescribed velocity (`C89_force_wrong`).
* **C89** `compute_residuum` overwrites the value of a block by that of the next one; with several blocks per process only the last counts (`C89_residuum_wrong`).
* **C89** the kernel of the first call of `run_iterative_initialization` is kept, the `velocity_relaxation_rate` of later calls is ignored (`C89_rate_ignored`). With `max_steps < check_residuum_after` an AssertionError is raised instead of the documented ValueError (`C89_assertion`). After a failure velocity is restored, density and populations are not (`C89_failure`).
* **C90** `run` of the n-phase model of Nestler returns `[1:-1, 1:-1]` of arrays with two ghost layers: one layer more than the domain on every side (`C90_returned`). Not modelled: with `homogeneous_neumann_boundaries` and finite differences `time_step` of `PhaseFieldStep` calls the step of the Cahn-Hilliard equation without the parameter `neumann_flag` its kernel has then (`phasefieldstep.py:254`, `kerneleqs.py:119`).
* **C92** `create_model` computes the velocity of the flow after streaming with `cqc` of the last order parameter, the loop variable left over (`nphase_nestler.py:158, 184`), which has no force: the velocity lacks `F / (2 rho)` (`C92_velocity`). With `gabd` not zero a phase that is absent arises beside interfaces of two others with negative values (`C92_third_phase_arises`). Across a planar interface in equilibrium the potentials are equal but not constant, so that both phases become less in the middle, and the sum of phases moves by the bulk energy (`C92_planar_interface`, `C92_sum_of_phases`). `simplex_projection_2d` does not conserve amounts.
* **C93** `laplacian_symbolic` asks for an isotropic second derivative for all stencils and is documented as isotropic; with 15 directions no weights are (`C93_second_15`), and with the centre weight -32/27 set by the code the sum over all axes is not either (`C93_isotropy`): the error of `x²y²` is 11/9 instead of 2/3. The centre weight -14/9 would make the Laplacian isotropic.
* **C94** `central_moment_reduced_monomial_to_polynomial_matrix` calls `extract_monomials(reduced_polynomials)` without the dimension (`moments.py:614`), so in 1D and 2D the exponent tuples have three entries while the velocity has fewer; `BinomialChimeraTransform` then raises `IndexError` in both directions (`C94_low_dimension_index_error`, on D2Q9 with `x^2 y^2 + x^4`: `C94_2d_aliases`), the other three transforms can be constructed. With aliases the binomial and the shift matrix transforms add the raw background moments of the kept monomials, the other two the central moments of the original polynomials; they agree if the background has equal moments for aliases (hypothesis of `C94_transforms`), which isotropic backgrounds have for all offered sets.
* **C95** `He.continuous_force_central_moments` shifts moments of a continuous force with a matrix that uses relations of the stencil. For the cascaded set of D3Q15, the default of `create_central_moment` there, the shift needs `x³ = x`, which the continuous force does not satisfy: the last central moment of the force is `-6 Σ u_a³ F_a` instead of 0 (`C95_d3q15`). For all other offered sets, and for the default set of D3Q15 (`defaults_closed`), the relations are not needed.
* **C96** The names `F_x`, `F_y`, `F_z` are not reserved. A force `(Symbol('F_y'), 0.1)` becomes `[F_y, F_y]` with the substitution `F_y = 0.1`, so the first component silently is 0.1 (`C96_capture`, witness). A force `(2*F_x, 0)` gives the assignment `F_x = 2*F_x`, which no order of assignments can satisfy (`C96_cycle`); with a fraction field the same happens to the plain symbols `(F_x, F_y)`, since the scaled components are products (`C96_saturated_cycle`).
* **C97** The chimera transform for raw moments removes aliases only between monomials that occur, and not monomials that vanish on the stencil: with `x^2 + x*y` on D3Q7 it raises a `ValueError` where the matrix transform works (`C97_too_many_monomials`). It also replaces the polynomials before it asks the background for their moments, so that with a continuous Maxwellian and `x^2 + x^6` the two transforms add 2/3 and 8/9 (`C97_background_differs`).
* **C98** `periodic_pdf_gpu_copy_kernel` is documented for non-overlapping slices but does not check this; for overlapping ones the result depends on the interleaving of threads (`C98_overlap`). The slices of the periodicity handling never overlap.
* **C99** with different relaxation rates the same model of Guo gives different populations after a collision in raw and in central moment space (`C99_guo_raw`, `C99_guo_differs`); this is inherent to relaxing different moments, not an error. Simple and Buick have second central moments proportional to the velocity, hence are not Galilean invariant.
* **C100** `compile_macroscopic_values_setter` documents `ghost_layers` and `iteration_slice` like the getter but never passes them to `create_kernel` (line 232 against 155): with the pull pattern every cell of the array is set whatever the arguments are (`C100_setter_sets_ghost_layers`, `C100_setter_ignores_arguments`). It is documented to take a map from conserved quantity names, but `density_deviation`, which the getter accepts, is a `TypeError` (`C100_density_deviation`). With the wide stencils D2V17 and D2V37 and a pattern that writes to neighbours, the getter's default `ghost_layers=1` reads outside of the array (example in `Props/CompiledMacro.lean`).
* **C101** `strain_rate_tensor_getter` uses the relation between strain rate and populations *before* the collision, but by default reads those *after* it: the result is `1 - ω` times the strain rate (zero for ω = 1, wrong sign for ω > 1; `C101_from_array`). Its factor 1.5 is `1/(2 c_s²)` for `c_s² = 1/3` only (`C101_strain_rate`). The returned assignments use the symbols of density and velocity without defining them (`C101_undefined_symbols`). `get_field_accesses` with `pre_collision_pdfs` takes the *read* accesses of the previous time step; for in-place patterns these locations hold, after that step, the populations after the collision of the opposite directions, so a getter returns the velocity with the wrong sign (`C101_pre_inplace_reversed`), and populations set there are not what the next step reads (`C101_set_pre_inplace`).
* **C102** `EDM` substitutes shifted velocities by `subs` with a dictionary, which SymPy executes one after the other: in a force component that mentions a later velocity component, that component is already shifted. For a Coriolis force the momentum added is not the force (`C102_coriolis`); `C102_momentum` gives the momentum added in general. Forces whose components mention only earlier or the same component are right (`C102_edm_partial`).
* **C103** The sparse boundary mapper calls the boundary condition with four arguments, all boundary conditions of the package take seven: `TypeError` (`C103_package_boundaries`). A boundary condition with four parameters works unless it reads additional data: the access to the one-dimensional data field is taken for a neighbour, `IndexError` in two and three dimensions (`C103_additional_data`), and the additional data columns of the index array are never filled (`np.empty`). `create_index_arr` on a mapping not used before raises `AttributeError` (`C103_first_use`). Boundary cells that are not in `other_boundary_mask` of the mapping are not reported, the kernel overwrites a fluid cell (`C103_silent`). `velocity=True` of the sparse setter, documented, raises `TypeError` (`C103_flag_argument`).
* **C104** `ExtrapolationOutflow` calls the lambdified equilibrium terms with the density in the place of the first symbol, which for a delta equilibrium is the density deviation: density 1 gives populations of density 2 (`C104_delta_equilibrium`; the test of the package compares the stored, shifted populations with the weights, which is this case). Delta equilibria of compressible methods contain both symbols: `NameError` (`C104_delta_compressible`). The discrete Maxwellian passes three velocity symbols also in two dimensions: `TypeError` (`C104_discrete_two_dimensional`). The force shift is not subtracted: the velocity read is off by `F/(2 rho)` (`C104_force`). A density of 0, or only one of density and velocity, is ignored silently (`C104_used_iff`). The default `zeroth_timestep` raises for in-place patterns (`C104_default_timestep`).
* **C105** `post_run` applies one getter, which adds half the force to the momentum, to whatever is stored. With `collide_stream` these are populations before the collision, with `stream_collide` (default) those after it, which have the whole force already: in the same flow the reported velocities differ by `F/rho` (`C105_reported`), also in a steady state (`C105_steady`). `streaming_pattern='push'` is accepted by `LatticeBoltzmannStep` although ghost layers and boundaries are treated as for pull; populations leaving a periodic side are lost (`C105_push_loses_mass`). In-place patterns are refused (`C105_inplace_refused`).
* **C106** With the default order the reported momentum density of the steady flow between plates is the parabola plus the force (`C106_simulation_default`, a case of C105); only `collide_stream` reports the parabola itself.
* **C108** `DiffusionDirichlet` with `velocity_field` uses `cs = 1/3` as the speed of sound (`boundaryconditions.py:1170-1176`; its square is 1/3). Seen by diffusion between plates with a velocity `u` along them, the plate has the concentration `C (1 + 9 u²)` instead of `C` (`C108_dirichlet`, second part).
* **C109** The default weights of D3Q7 have no weight at rest. For methods with two relaxation times at rest, differences between the colours of a checkerboard then never decay in a periodic box of even size, for any rates: they change their sign in every step (`C109_d3q7`). The stencils with 9, 15, 19 and 27 directions do not have this defect (`C109_trt_mean`).
* **C110** The momentum along an axis with signs alternating from cell to cell is never damped, whatever the viscosity, in simulations with no-slip walls and, if the axis is periodic, an even number of cells (`C110_methods`). So force-free simulations do not come to rest in general. Not a defect of the code but of the scheme; the documentation does not mention it.
* **C111** `hydrodynamic_moment_values(compressible=False)`: with `c_s ** 2 = p / rho` the third moments `p * u` contain no symbol `rho`, so the density is not removed. With `p = rho / 3` the returned third moments are `rho` times those of the incompressible discrete Maxwellian (`C111_hydrodynamic_partial`, witness `C111_hydrodynamic_fails`).
* **C112** `take_moments` asserts that the equation is a sum or a product: a single population, a single derivative of one or zero are rejected (`C112_atom_rejected`). Populations of order `max_expansion` or higher are not recognised (`C112_order_unknown`). A product of a population with the derivative of something else is returned as the derivative of the moment (`C112_other_derivative`); the expansion before removes such derivatives.
* **C113** `match_to_navier_stokes` asserts that what is left of a momentum equation is a sum: equations without stress (inviscid) fail (`C113_inviscid_rejected`). A time derivative that is left raises an index error of the matrix, not the assertion of the error terms (`C113_time_derivative`). Coefficients are moved into the pressure even if they are fields, so the returned pressure is wrong for them (`C113_coefficients_wrong`).
* **C114** The `zero_threshold` of `chemical_potential_n_phase_boyer` replaces `Eq(c, 0)` only; for symbols that are known to be not negative the conditions are `c <= 0` and the threshold is ignored (`C114_threshold_ignored`). Below the threshold the value jumps, and which symbols are set to zero depends on the order of a set (`C114_threshold_changes`: 3/4 becomes 0 or 1).
* **C115** `chain_solve_and_substitute` depends on the order of the equations: two equations that it solves are rejected in the other order (`C115_order`). In `compute_higher_order_moment_subs_dict` the list named `o_eps_without_time_diffs` still contains the time derivative that each equation was solved for; an equation with a new time derivative and moments enters the solution for the moments with it (modelled as no result).
* **C116** The docstring of `create_copy_kernel` says the accessor defines where to read and write; both sides use `accessor.write`, `accessor.read` is never used. The populations that flow into the copied cells from outside are not transferred (`C116_border`).
* **C117** The module says that a shown 15.1 means that 15^2 cells fit. The number is rounded, not cut: with 36680 bytes the table shows 16.0 but 16 × 16 cells need 36864 bytes (`C117_shown_too_large`). Ghost layers are not counted: 15 × 15 cells with one layer do not fit into the 32 KB of the example (`C117_ghost_layers`). `convert_memory_size` is annotated `-> int` and returns a float for strings.
* **C118** `apply_force_model_shift` zips the velocity equations with the shift; a force with fewer components than the dimension drops velocity equations silently (`C118_lost`). The docstring speaks of a `shift_member_name` that does not exist.
* **C119** For a free energy with a gradient in a denominator `separate_into_bulk_and_interface` returns `nan` parts instead of an error (`C119_quotient`).
* **C120** `create_three_phase_model(include_rho=False)` computes `op_transformation` without the row of the density but passes the full matrix to `PhaseFieldStep`; `set_concentration` then has three values for two order parameters and raises an `IndexError` (`C120_no_rho_rejects`), after writing the density to the first order parameter. The test with this option is commented out (`test_phase_field_scenarios.py:52`). `set_single_concentration` of the n-phase model ignores the value for the last phase (`C120_single_last`).
* **C121** `init_sharp_interface` and `init_tanh` with the same bounds put the interfaces half a cell apart (`C121_half_cell`); the default bounds are centred only for sizes that are multiples of four (`C121_default_centred`); exchanged bounds are not reported and give negative order parameters (`C121_smooth_exchanged`); the last phase is ignored silently (`C121_last_ignored`).
* **C122** The docstring of `discrete_approx_entropy` calls it an approximation of the entropy for populations close to the reference. It has the same maximum, but its leading term is twice that of the entropy (`C122_factor_two`): the linear expansion of the logarithm drops a term of the same order as the result. Surplus references are dropped silently (`C122_surplus`).
* **C123** `substitute_post_collision_moments` passes the exponent of a power down to its base but uses it for leaves only: the exponent of a sum (in a denominator; positive powers are expanded before) or of a derivative is lost (`C123_exponent_lost`, `C123_not_sound`). The equations of the analysis are linear in derivatives and have no such denominators. It reads powers of `Υ` as repeated collisions, `substitute_collision_operator_moments` as powers (`C123_power`).
* **C124** `get_solvability_conditions` contains the equilibrium parts of density and momentum, which are not zero (`C124_conditions`, `C124_first_removes`); it is correct only after all equilibrium moments have been replaced (`C124_sound`).
* **C125** The docstring of `chapman_enskog_derivative_expansion` says that differentials with *no superscript* are replaced; the code does not check the superscript and replaces parts of derivatives as well (`C125_superscript_ignored`, `C125_superscript_not_sound`).
* **C126** `moment_equality_table` compares one permutation of every moment and counts all of them, also for equilibria given by the caller; for one that is not symmetric the printed numbers are wrong (`C126_not_symmetric`). The assumption is documented only for `moment_equality_table_by_stencil`.
* **C127** `_get_slice` repeats the mask along axis 2, which is the axis of the components only for two-dimensional slices; in three dimensions the result is right because numpy reshapes a mask of the same size (`C127_three_axes`), for one axis it fails (`C127_line_fails`). `density_slice()` without a slice fails if there is a `density_data_index` (`C127_density`). Seen while reading, not modelled: the property `LatticeBoltzmannStep.config` (`lbstep.py:223-226`) returns itself, an endless recursion; `boundary_substitutions` (`boundaries_in_kernel.py:33`, never called) calls the method `weight_of_direction` on the class without an instance.
* **C128** `add_black_and_white_image`: the mask ignores the order of the axes in `plane` while the target size follows it (`C128_plane_order`): `plane=(1, 0)` gives the image of `(0, 1)` in a square region (and a numpy error otherwise, not modelled). The test `zoomed_image.shape != target_size` compares a tuple with a list and is always true; harmless. The docstring promises a velocity field as result.
* **C129** `ScalingWidget`: the field of the velocity has only the listener for the Reynolds number, so after a new velocity the shown lattice velocity (or time step) is the one of the old velocity (`C129_velocity_stale`). With `fixed lattice velocity` the relaxation rate is computed before the time step it depends on; only the nested notification of the time step repairs it (`C129_settles`).
* **C130** `create_two_drops_between_phases`: the docstring draws two equal drops, the first is about twice as wide as the second (`C130_widths`).
* **C131** `insert_conserved_quantity_products` takes keyword arguments but does not pass them on, so `skip` has no effect (`C131_skip_ignored`). `insert_pure_products` leaves squares such as `u_0**2` although they are products of the symbols (`C131_square`).

## Not modelled

* floating point: all statements are about exact arithmetic;
* sympy itself: expressions are functions or small syntax trees, automatic simplification is assumed to keep values;
* pystencils: kernels do what their assignments say, in any cell order; `BoundaryHandling`, `TimeLoop`, `DataHandling`
  obey the contract stated in the header of `TimeLoop.lean`; numpy functions as stated in `Sparse.lean`;
* GPU and MPI; plotting, database, notebooks;
* common subexpression elimination and the other simplification strategies except those named above.

## Trusted base

The kernel of Lean 4.33.0; the definitions of Mathlib occurring in statements (`Finset.sum`, `Matrix`, `ℝ`, ...); the
correspondence of the model to the python text, which is by reading (cited lines). No axioms besides `propext`,
`Classical.choice` and `Quot.sound`; no `sorry`, no `native_decide`, no `bv_decide`. Finite tables are evaluated by the
kernel (`decide +kernel`). Axioms of the theorems named in `MANIFEST.json` (names without the prefix `Lbm.`):

* no axioms (5): `C103_package_boundaries`, `CeSubst.C123_power`, `CeSubst.C123_exponent_lost`, `C14_eq_hash_contract_violated`, `C15_empty_tuple`
* `propext` (19): `TakeMoments.C112_atom_rejected`, `MaskedSlice.C127_scalar`, `MaskedSlice.C127_line_fails`, `MaskedSlice.C127_density`, `C17_needs_first_neighbours`, `C28_extract_accepts_any`, `C32_aos`, `C33_modifier`, `C40_calls`, `C40_access`, `C40_both_inplace`, `C40_marker_stuck`, `C44_mass_and_tangential_momentum`, `C48_mixed_term_is_bulk`, `Config.C56_force_synonyms`, `Entropic.C58_iterative_gap`, `Boyer.C67_psi_refused`, `OldroydB.C72_force_on_boundary_raises`, `SymbolicForce.C96_truncated`
* `Quot.sound`, `propext` (66): `C10_mirror_involutive`, `TakeMoments.C112_order_unknown`, `CopyKernel.C116_copy`, `CopyKernel.C116_same`, `CopyKernel.C116_outgoing`, `MomentShift.C118_pipeline`, `MomentShift.C118_commute`, `MomentShift.C118_reverse`, `MomentShift.C118_lost`, `BulkInterface.C119_bulk_no_gradient`, `Concentrations.C120_outside`, `Concentrations.C120_no_rho_rejects`, `Concentrations.C120_plain`, `Concentrations.C120_twice`, `CeSubst.C123_insert_sound`, `CeSubst.C123_insert_complete`, `CeSubst.C123_insert_keeps`, `CeSubst.C123_operator`, `CeSubst.C123_agree`, `CeSubst.C123_substitute_sound`, `DerivExpansion.C125_recombine_complete`, `DerivExpansion.C125_ce_complete`, `DerivExpansion.C125_superscript_ignored`, `EqualityTable.C126_not_symmetric`, `MaskedSlice.C127_two_axes`, `MaskedSlice.C127_rejects`, `ImageMask.C128_callback`, `ImageMask.C128_blocks`, `ImageMask.C128_plane_order`, `C13_predefined_sets`, `InsertSub.C131_skip_ignored`, `C14_eq_is_set_equality`, `C17_reduced`, `Scaling.C25_reynolds_current`, `C28_extract`, `C29_bouzidi_exact_linear`, `C33_one_rate`, `C33_all_rates`, `C33_single`, `C33_unbound`, `C33_callable`, `C33_bulk_rate`, `C33_order_partial`, `Chimera.C35_default_sets`, `C38_equal_rates_is_srt`, `C41_run`, `C41_history`, `C41_split`, `C47_available`, `C47_groups_as_documented`, `CentralMoments.C52_cascaded_order`, `Config.C56_stages`, `Config.C56_optimisation`, `Geometry.C73_cavity`, `Geometry.C73_zero_force`, `FdStencils.C77_error`, `PostProcessing.C80_axis_parallel`, `Simplify.C84_factor_rates`, `Simplify.C84_factor_density`, `Simplify.C84_density_velocity`, `Simplify.C84_second_order`, `Simplify.C84_unused`, `Simplify.C84_substitute_moments`, `HeatSolver.C85_initialise`, `IterativeInit.C89_assertion`, `SymbolicForce.C96_saturated`
* `Classical.choice`, `Quot.sound`, `propext` (1000): `C01_step`, `C01_streaming_pattern_equals_textbook`, `C01_patterns_agree`, `predefined_supported`, `C02_inplace_race_free`, `C03_two_array_writes_once`, `C04_split_equals_fused`, `C05_streaming_conserves_totals`, `C06_accessor_rejects_exactly`, `C06_timesteps_alternate`, `C06_esoteric_rejects_other_sizes`, `C06_rest_not_first_mistranslated`, `C07_proxies_address_right_slots`, `C07_inplace_both_rejected`, `C08_no_slip_is_bounce_back`, `C08_link_order_irrelevant`, `C09_closed_domain_conserves_mass`, `exists_allLinks`, `C10_predefined_mirrorClosed`, `C10_accepted_normals`, `C10_given_normal_specular`, `C10_automatic_normal_specular`, `CompiledMacro.C100_setter_compiles`, `CompiledMacro.C100_setter`, `CompiledMacro.C100_round_trip`, `CompiledMacro.C100_setsMacro`, `CompiledMacro.C100_getter_in_bounds`, `CompiledMacro.C100_predefined`, `CompiledMacro.C100_getter_names`, `CompiledMacro.C100_inplace_needs_timestep`, `CompiledMacro.C100_setter_excludes_partial`, `CompiledMacro.C100_setter_sets_ghost_layers`, `CompiledMacro.C100_setter_ignores_arguments`, `CompiledMacro.C100_density_deviation`, `StrainRate.C101_pre_two_arrays`, `StrainRate.C101_pre_inplace_reversed`, `StrainRate.C101_set_pre_inplace`, `StrainRate.C101_symbols`, `StrainRate.C101_assignments`, `StrainRate.C101_flow_is_steady`, `StrainRate.C101_strain_rate`, `StrainRate.C101_from_array`, `StrainRate.C101_undefined_symbols`, `StrainRate.linearEq_is_order_one`, `EdmSubst.C102_edm_partial`, `EdmSubst.C102_momentum`, `EdmSubst.C102_coriolis`, `C103_boundary`, `C103_run`, `C103_no_slip`, `C103_round_trip`, `C103_predefined`, `C103_additional_data`, `C103_first_use`, `C103_silent`, `C103_flag_argument`, `C104_from_field`, `C104_with_equilibrium`, `C104_failure`, `C104_default_timestep`, `C104_steady`, `C104_used_iff`, `C104_prescribed_partial`, `C104_prescribed_cells_partial`, `C104_force`, `C104_delta_equilibrium`, `C104_delta_compressible`, `C104_discrete_two_dimensional`, `Simulation.C105_stream_collide`, `Simulation.C105_collide_stream`, `Simulation.C105_orders`, `Simulation.C105_mass`, `Simulation.C105_getter`, `Simulation.C105_reported`, `Simulation.C105_steady`, `Simulation.C105_method`, `Simulation.C105_inplace_refused`, `Simulation.C105_push_loses_mass`, `Simulation.exists_setUp`, `Poiseuille.C106_profile`, `Poiseuille.C106_method`, `Poiseuille.C106_trt`, `Poiseuille.C106_simulation`, `Poiseuille.C106_simulation_default`, `Poiseuille.C106_magic`, `Poiseuille.C106_poiseuille_flow`, `Poiseuille.C106_exists`, `Poiseuille.C107_profile`, `Poiseuille.C107_ubb`, `Poiseuille.C107_simulation`, `Poiseuille.C107_simulation_default`, `Poiseuille.C107_couette`, `Poiseuille.C107_exists`, `Poiseuille.C108_profile`, `Poiseuille.C108_input`, `Poiseuille.C108_input_both`, `Poiseuille.C108_velocity_input`, `Poiseuille.C108_trt`, `Poiseuille.C108_dirichlet`, `Poiseuille.C108_simulation`, `Poiseuille.C108_simulation_default`, `Poiseuille.C108_exists`, `Decay.C109_energy`, `Decay.C109_bounded`, `Decay.C109_steady`, `Decay.C109_converges`, `Decay.C109_mean`, `Decay.C109_rules`, `Decay.C109_trt`, `Decay.C109_trt_mean`, `Decay.C109_plates`, `Decay.C109_growth`, `Decay.C109_d3q7`, `C11_source_is_torus_neighbour`, `C11_rejects_exactly`, `C11_each_slot_read_once`, `C11_periodic_accessor_run`, `Stokes.C110_alternating`, `Stokes.C110_never_steady`, `Stokes.C110_contraction`, `Stokes.C110_bounded`, `Stokes.C110_lattice`, `Stokes.C110_trt`, `Stokes.C110_ubb`, `Stokes.C110_momentum`, `Stokes.C110_methods`, `Stokes.C110_poiseuille`, `IncompressibleMoments.C111_linear`, `IncompressibleMoments.C111_value`, `IncompressibleMoments.C111_idempotent`, `IncompressibleMoments.C111_not_idempotent`, `IncompressibleMoments.C111_discrete`, `IncompressibleMoments.C111_continuous`, `IncompressibleMoments.C111_hydrodynamic_partial`, `IncompressibleMoments.C111_hydrodynamic_fails`, `TakeMoments.C112_product`, `TakeMoments.C112_errors`, `TakeMoments.C112_moments`, `TakeMoments.C112_other_derivative`, `NavierStokesMatch.C113_result`, `NavierStokesMatch.C113_navier_stokes`, `NavierStokesMatch.C113_compressible`, `NavierStokesMatch.C113_pressure_stress`, `NavierStokesMatch.C113_inviscid_rejected`, `NavierStokesMatch.C113_time_derivative`, `NavierStokesMatch.C113_coefficients_wrong`, `ZeroConditions.C114_value`, `ZeroConditions.C114_single`, `ZeroConditions.C114_threshold`, `ZeroConditions.C114_threshold_ignored`, `ZeroConditions.C114_threshold_changes`, `ChainSolve.C115_chain`, `ChainSolve.C115_triangular`, `ChainSolve.C115_unique`, `ChainSolve.C115_two_unknowns`, `ChainSolve.C115_order`, `ChainSolve.C115_moments`, `ChainSolve.C115_moments_solve`, `CopyKernel.C116_incoming`, `CopyKernel.C116_periodic`, `CopyKernel.C116_border`, `DomainSize.C117_square`, `DomainSize.C117_cube`, `DomainSize.C117_ghost_layers`, `DomainSize.C117_docstring`, `DomainSize.C117_shown_too_large`, `DomainSize.C117_shown_safe`, `DomainSize.C117_overview`, `DomainSize.C117_overview_error`, `DomainSize.C117_units`, `DomainSize.C117_rejected`, `BulkInterface.C119_bulk`, `BulkInterface.C119_sum`, `BulkInterface.C119_interface_uniform`, `BulkInterface.C119_unique`, `BulkInterface.C119_quadratic`, `BulkInterface.C119_idempotent`, `BulkInterface.C119_quotient`, `C12_periodicity_partial`, `C12_periodic_run_is_torus`, `C12_two_ghost_layers_wrong`, `Concentrations.C120_n_phase`, `Concentrations.C120_single`, `Concentrations.C120_single_last`, `Concentrations.C120_three_phase`, `Concentrations.C120_no_rho_read`, `InitialProfiles.C121_sharp`, `InitialProfiles.C121_complement`, `InitialProfiles.C121_last_ignored`, `InitialProfiles.C121_sharp_count`, `InitialProfiles.C121_smooth_range`, `InitialProfiles.C121_smooth_others`, `InitialProfiles.C121_smooth_exchanged`, `InitialProfiles.C121_symmetric`, `InitialProfiles.C121_default_centred`, `InitialProfiles.C121_single_interface`, `InitialProfiles.C121_half_cell`, `DiscreteEntropy.C122_gibbs`, `DiscreteEntropy.C122_maximum`, `DiscreteEntropy.C122_approx_square`, `DiscreteEntropy.C122_lower`, `DiscreteEntropy.C122_second_order`, `DiscreteEntropy.C122_factor_two`, `DiscreteEntropy.C122_surplus`, `CeSubst.C123_not_sound`, `HigherOrder.C124_conditions`, `HigherOrder.C124_sound`, `HigherOrder.C124_first_removes`, `HigherOrder.C124_iterations`, `DerivExpansion.C125_expand_sound`, `DerivExpansion.C125_expand_complete`, `DerivExpansion.C125_recombine_sound`, `DerivExpansion.C125_roundtrip`, `DerivExpansion.C125_ce_recombine`, `DerivExpansion.C125_superscript_not_sound`, `DerivExpansion.C125_empty`, `EqualityTable.C126_cells`, `EqualityTable.C126_positions`, `EqualityTable.C126_counts`, `EqualityTable.C126_total`, `MaskedSlice.C127_three_axes`, `ImageMask.C128_exact`, `ImageMask.C128_fits`, `ImageMask.C128_centred`, `ImageMask.C128_outside`, `ScalingWidget.C129_settles`, `ScalingWidget.C129_switch`, `ScalingWidget.C129_inputs`, `ScalingWidget.C129_runs`, `ScalingWidget.C129_repaired`, `ScalingWidget.C129_disabled`, `ScalingWidget.C129_velocity_stale`, `ScalingWidget.C129_scaling`, `C13_orderings_agree`, `C13_predefined_valid`, `C13_inverse_index_involution`, `C13_index_finds_members`, `DropSetup.C130_lens`, `DropSetup.C130_two_drops`, `DropSetup.C130_straddles`, `DropSetup.C130_lens_column`, `DropSetup.C130_centred`, `DropSetup.C130_widths`, `InsertSub.C131_values`, `InsertSub.C131_none_left`, `InsertSub.C131_pure`, `InsertSub.C131_square`, `InsertSub.C131_simplifications`, `InsertSub.C131_half_force`, `C14_accepts_exactly`, `C14_error_kinds`, `C14_by_name`, `C14_accepted_valid`, `C14_eq_implies_hash_eq_partial`, `C15_moments_of_order`, `C15_one_representative_per_class`, `C15_moments_up_to_order`, `C15_moments_up_to_component_order`, `C15_permutations`, `C15_extend`, `C16_representatives_partial`, `C16_at_most_one`, `C16_class_lost`, `C17_discrete_moment`, `C17_non_aliased`, `C17_aliases`, `C17_polynomials`, `C18_result`, `C18_error_iff`, `C18_independent`, `C18_last_vector_unchecked`, `MomentMethod.C19_defined_iff`, `MomentMethod.C19_moments`, `MomentMethod.C19_conservation`, `MomentMethod.C19_equilibrium`, `MomentMethod.C19_single_rate`, `MomentMethod.C19_basis_independence`, `MomentMethod.C19_space_independence`, `MomentMethod.C19_collision_matrix`, `MomentMethod.C19_set_conserved_rate`, `MomentMethod.C19_set_zeroth_rate_adds`, `MomentMethod.C19_matched_weights`, `C19_offered_sets_well_formed`, `C20_weights_isotropic`, `C20_weights_elementary`, `C20_D3Q7_not_fourth_order`, `C20_maxwellian_moments`, `C20_background_is_weights`, `C21_setter_moments`, `C21_round_trip`, `C21_predefined`, `C22_values`, `C22_subexpressions`, `C22_defined`, `C22_predefined`, `C22_no_unit_velocity`, `C22_D2Q9`, `C22_equilibriumInput`, `C22_output_moments`, `C22_output_orders_disagree`, `ForceInput.C23_simple`, `ForceInput.C23_luo`, `ForceInput.C23_he_terms`, `ForceInput.C23_he_continuous`, `ForceInput.C23_edm`, `ForceInput.C23_edm_second`, `ForceInput.C23_shan_chen_terms`, `ForceInput.C23_spaces_agree`, `ForceInput.C23_no_mass`, `ForceInput.C23_momentum`, `ForceInput.C23_second_moments`, `ForceInput.C23_shan_chen_original`, `C23_collision_general`, `C23_collision_adds_force`, `C23_predefined`, `C23_fraction_field_loses_force`, `ForceExample.C23_he_spaces_differ`, `C24_viscosity_rate`, `C24_rate_viscosity`, `C24_rate_antitone`, `C24_magic_number`, `C24_scaling`, `C24_scaling_composes`, `Scaling.C25_scalings_agree`, `Scaling.C25_lattice_reynolds`, `Scaling.C25_chained`, `C26_welford`, `C26_checks`, `C27_force_balance`, `C27_particle`, `C27_mass`, `C27_unknown_sc`, `C27_defined`, `C27_predefined`, `C28_smagorinsky_stress`, `C28_smagorinsky`, `C28_smagorinsky_monotone`, `C28_constant`, `C28_qr`, `C28_qr_invariants`, `C28_qr_undefined_at_equilibrium`, `C28_qr_dimension`, `C28_casson_clipped_partial`, `C28_casson_above_yield`, `C28_casson_newtonian`, `C28_casson_undefined`, `C29_bouzidi_reduces_to_no_slip`, `C29_bouzidi_continuous_at_half`, `C29_bouzidi_convex`, `C29_bouzidi_exact_linear_far`, `C29_bouzidi_kernel`, `C29_bouzidi_narrow_gap_order_dependent`, `C29_quadratic_consistent`, `C29_quadratic_recovers_pre_collision`, `C29_quadratic_default_is_not_no_slip`, `C30_ubb_zero_velocity`, `C30_ubb_value`, `C30_ubb_odd`, `C30_ubb_no_net_mass`, `C30_ubb_tangential_wall`, `C30_ubb_momentum`, `C30_ubb_density_zero_ignored`, `C30_ubb_kernel`, `C31_simple_outflow`, `C31_outflow_history`, `C31_outflow_closed_form`, `C31_outflow_weight`, `C32_numbering`, `C32_index_array`, `C32_step`, `C32_run`, `C32_both_flags`, `C32_bulk_silent`, `C32_wall_across_border`, `C32_collide_only`, `C33_grouped_partial`, `C33_cascaded_count`, `C33_D3Q7_third_rate`, `C33_one_dimension`, `C33_shear_rate`, `C33_shear_rate_is_first`, `C33_order_leading`, `C33_order_not_degree`, `C34_values_preserved`, `C34_sharing`, `C34_substitute_back`, `C34_name_collision`, `Chimera.C35_raw`, `Chimera.C35_fast_central`, `Chimera.C35_binomial`, `Chimera.C35_central`, `Chimera.C35_roundtrip`, `Chimera.C35_name_collision`, `Chimera.C35_far_velocities_dropped`, `Chimera.C35_needs_lower_exponents`, `Chimera.C35_tuple_too_long`, `MomentMethod.C36_collision`, `MomentMethod.C36_simulation`, `SymSplit.C37_values`, `SymSplit.C37_form`, `SymSplit.C37_hints`, `SymSplit.C37_chained`, `SymSplit.C37_input_modified`, `MomentMethod.C38_even_odd_decouple`, `C38_is_even_sound`, `C38_create_trt`, `C39_moment_of_cumulants`, `C39_cumulant_of_moments`, `C39_central`, `C39_central_equals_raw`, `C39_generating_function`, `C39_derivatives`, `C42_success`, `C42_failure`, `C42_total`, `C42_residuum`, `C42_residuum_last_block`, `C43_wall_force_is_momentum_loss`, `C44_free_slip_channel_invariants`, `C45_fixed_density_fixpoint`, `C45_dirichlet_at_rest`, `C45_dirichlet_with_velocity_wrong`, `C46_exponents_roundtrip`, `C46_indices_roundtrip`, `C46_contained`, `C46_is_even`, `C47_moment_sets_are_bases`, `C47_orthogonal`, `C47_expand`, `C48_bulk`, `C48_shear`, `Continuous.C49_generating`, `Continuous.C49_moment`, `Continuous.C49_central_moment`, `Continuous.C49_central_moment_values`, `Continuous.C49_cumulant`, `Continuous.C49_values`, `Continuous.HydroMaxwellian.C49_class_moment`, `Continuous.HydroMaxwellian.C49_class_moment_truncated`, `Continuous.HydroMaxwellian.C49_low_moments_exact`, `Continuous.HydroMaxwellian.C49_class_central_moment`, `Continuous.HydroMaxwellian.C49_class_central_moment_truncated`, `Continuous.HydroMaxwellian.C49_central_moment_independent_of_order`, `Continuous.HydroMaxwellian.C49_conserved`, `Continuous.HydroMaxwellian.C49_deviation`, `Continuous.HydroMaxwellian.C49_class_cumulant`, `Matching.C50_matching`, `Matching.C50_product_form`, `Matching.C50_full_stencils`, `Matching.C50_third_order`, `CumulantTransform.C51_forward`, `CumulantTransform.C51_backward`, `CumulantTransform.C51_backward_forward`, `CumulantTransform.C51_forward_backward`, `CumulantTransform.C51_populations`, `CumulantTransform.C51_low_orders`, `CumulantTransform.C51_reads`, `CumulantTransform.C51_constructor`, `CumulantTransform.C51_transform_backward_forward`, `CumulantTransform.C51_transform_forward_backward`, `CumulantTransform.C51_offered_sets`, `CentralMoments.C52_shift_matrix`, `CentralMoments.C52_matrix_transform`, `CentralMoments.C52_triangular`, `CentralMoments.C52_reduced_matrix`, `CentralMoments.C52_offered_sets`, `CentralMoments.Witness.C52_assertion_too_weak`, `CentralMoments.Method.C53_defined_iff`, `CentralMoments.Method.C53_moments`, `CentralMoments.Method.C53_zero_rates`, `CentralMoments.Method.C53_equilibrium`, `CentralMoments.Method.C53_single_rate`, `CentralMoments.Method.C53_raw_moments`, `CentralMoments.Method.C53_zero_centred`, `CentralMoments.Method.C53_mass_momentum`, `CentralMoments.Method.C53_conservation`, `CentralMoments.C53_force_space`, `CentralMoments.C53_force_momentum`, `CentralMoments.C53_offered_sets`, `CumulantMethod.C54_order`, `CumulantMethod.C54_regular`, `CumulantMethod.Method.C54_defined_iff`, `CumulantMethod.Method.C54_cumulants`, `CumulantMethod.Method.C54_equilibrium`, `CumulantMethod.Method.C54_zero_rates`, `CumulantMethod.Method.C54_mass_momentum`, `CumulantMethod.Method.C54_force`, `CumulantMethod.Method.C54_conservation`, `CumulantMethod.Method.C54_zero_centred`, `CumulantMethod.Method.C54_force_models`, `CumulantMethod.Method.C54_maxwellian`, `CumulantMethod.C54_maxwellian_low`, `CumulantMethod.C54_offered_sets`, `Corrections.C55_derivatives`, `Corrections.C55_galilean`, `Corrections.C55_galilean_zero`, `Corrections.C55_fourth_order_monomials`, `Corrections.C55_fourth_order_partial`, `Corrections.C55_fourth_order_not_covariant`, `Corrections.C55_additional_parameters`, `Corrections.C55_limited`, `Corrections.C55_rates_default`, `Corrections.C55_rates_unchecked`, `Corrections.C55_limiters_not_covariant`, `Corrections.C55_galilean_exceptions`, `Corrections.C55_fourth_order_exceptions`, `Corrections.C55_no_correction`, `Corrections.C55_mass_momentum`, `Corrections.C55_defined_iff`, `Corrections.C55_placed`, `Corrections.C55_conservation`, `Corrections.C55_parameters_difference`, `Corrections.C55_place`, `Config.C56_make`, `Config.C56_configuration`, `Config.C56_idempotent_iff`, `Config.C56_idempotent`, `Config.C56_accepted_then_refused`, `Config.C56_update_partial`, `Config.C56_force_change_ignored`, `Config.C56_rates_change_ignored`, `Config.C56_update_not_fresh`, `Config.C56_force_model`, `Config.C56_default_force_model`, `Config.C56_psm_force_differs`, `Config.C56_create_method`, `Config.C56_fourth_order_stencil_check`, `Config.C56_kernel`, `Wall.C57_newton_fixed_point`, `Wall.C57_log_law_solution`, `Wall.C57_log_law_newton`, `Wall.C57_log_law_default_start`, `Wall.C57_log_law_target_fails`, `Wall.C57_spalding_solution`, `Wall.C57_spalding_newton`, `Wall.C57_stress`, `Wall.C57_rest_undefined`, `Wall.C57_most`, `Wall.C57_init`, `Wall.C57_wall_stress`, `Wall.C57_wall_stress_undefined`, `Wall.C57_weights`, `Wall.C57_stencils`, `Wall.C57_momentum_exchange`, `Wall.C57_wfb_step`, `Wall.C57_mean_velocity_distance`, `Wall.C57_pdf_sample_pull`, `Wall.C57_pdf_sample_push`, `Wall.C57_musker_sublayer`, `Wall.C57_musker_solution`, `Wall.C57_musker_newton`, `Wall.C57_musker_default_start`, `Entropic.C58_rates`, `Entropic.C58_linear_accepted`, `Entropic.C58_trt_refused`, `Entropic.C58_mixed_refused`, `Entropic.C58_iterative_complete`, `Entropic.C58_explicit_maximal`, `Entropic.C58_conservation`, `Entropic.C58_equilibrium_undefined`, `Entropic.C58_forced_not_maximal`, `Entropic.C58_second_derivative`, `Entropic.C58_newton_fixed_point`, `Entropic.C58_iterative_maximal`, `Entropic.C58_procedures_agree`, `Entropic.C58_iterative_degenerate`, `Entropic.C58_explicit_gap`, `Fluctuating.C59_accepted`, `Fluctuating.C59_amplitudes_refused`, `Fluctuating.C59_random_numbers`, `Fluctuating.C59_moments`, `Fluctuating.C59_defined`, `Fluctuating.C59_total`, `Fluctuating.C59_norms`, `Fluctuating.C59_uniform`, `Fluctuating.C59_stationary`, `Fluctuating.C59_linear_equilibrium`, `Fluctuating.C59_linear_rule`, `Fluctuating.C59_stationary_realised`, `Fluctuating.C59_symbol_accepted`, `Fluctuating.C59_conserved_moments`, `AllenCahn.C60_planar_chemical_potential`, `AllenCahn.C60_chemical_potential_energy`, `AllenCahn.C60_surface_tension`, `AllenCahn.C60_tracking_balance`, `AllenCahn.C60_tracking_levels_partial`, `AllenCahn.C60_normal`, `AllenCahn.C60_bulk`, `AllenCahn.C60_refused`, `AllenCahn.C60_equal_densities`, `AllenCahn.C60_pressure`, `AllenCahn.C60_thermocapillary`, `AllenCahn.C60_marangoni`, `AllenCahn.C60_rates`, `AllenCahn.C60_viscous_force_partial`, `AllenCahn.C60_viscous_force_wrong`, `AllenCahn.C60_sub_iterations`, `AllenCahn.C60_sub_iterations_fixed`, `AllenCahn.C60_initial_velocity_partial`, `AllenCahn.C60_viscous_interpolated`, `AllenCahn.C61_wetting`, `AllenCahn.C61_bounded`, `AllenCahn.C61_bulk`, `AllenCahn.C61_symmetry`, `AllenCahn.C61_equilibrium`, `AllenCahn.C61_refused`, `AllenCahn.C61_narrow_interface`, `AllenCahn.C62_rti`, `AllenCahn.C62_rti_total`, `AllenCahn.C62_rti_atwood_partial`, `AllenCahn.C62_rising_bubble`, `AllenCahn.C62_rising_bubble_total`, `AllenCahn.C62_taylor_bubble_partial`, `AllenCahn.C62_droplet`, `AllenCahn.C62_droplet_dropped_partial`, `PhaseField.C63_phase_symmetry`, `PhaseField.C63_chemical_potential`, `PhaseField.C63_equilibrium`, `PhaseField.C63_surface_tension`, `PhaseField.C63_refused`, `PhaseField.C63_triple_point`, `PhaseField.C63_correction`, `PhaseField.C63_correction_sign`, `PhaseField.C63_correction_odd_wrong`, `PhaseField.C63_three_phases_transformation`, `PhaseField.C63_three_phases_surface_tension`, `PhaseField.C63_penalty`, `PhaseField.C63_default_order_parameters`, `PhaseField.C63_default_order_parameters_wrong`, `PhaseField.C64_gamma`, `PhaseField.C64_gamma_refused`, `PhaseField.C64_divergence`, `PhaseField.C64_interface_new`, `PhaseField.C64_symmetric`, `PhaseField.C64_pressure_sqrt`, `PhaseField.C64_pressure_sqrt_wrong`, `PhaseField.C64_linearization`, `Eos.C65_vdw_equation`, `Eos.C65_vdw_critical`, `Eos.C65_vdw_inflection`, `Eos.C65_cs_critical_partial`, `Eos.C65_cs_critical_wrong`, `Eos.C65_eos_of_free_energy`, `Eos.C65_free_energy_of_eos`, `Eos.C65_maxwell`, `Eos.C65_maxwell_step`, `Eos.C65_maxwell_terminates_partial`, `Eos.C65_maxwell_zero_tolerance_wrong`, `Eos.C65_maxwell_near_critical_wrong`, `CahnHilliardLb.C66_moments`, `CahnHilliardLb.C66_d3q7_wrong`, `CahnHilliardLb.C66_no_weights`, `CahnHilliardLb.C66_collision`, `CahnHilliardLb.C66_expression_rate_wrong`, `CahnHilliardLb.C66_conservation`, `CahnHilliardLb.C66_mobility`, `Boyer.C67_diffusion_unique`, `Boyer.C67_diffusion`, `Boyer.C67_diffusion_defined`, `Boyer.C67_gamma_sum`, `Boyer.C67_sum_preserved`, `Boyer.C67_decoupled`, `Boyer.C67_psi`, `Boyer.C67_psi_absent`, `Boyer.C67_psi_total`, `Boyer.C67_equal_independent`, `Boyer.C67_equal_pair`, `Boyer.C67_equal_three`, `Boyer.C67_h_derivative`, `Boyer.C67_correction_absent`, `Boyer.C67_stabilization_three`, `Boyer.C67_ab`, `Boyer.C67_same_as_n_phases`, `Boyer.C67_surface_tension`, `ChapmanEnskog.C68_taylor_exact`, `ChapmanEnskog.C68_taylor_shifted`, `ChapmanEnskog.C68_taylor_second_order`, `ChapmanEnskog.C68_ansatz_sum`, `ChapmanEnskog.C68_first_order`, `ChapmanEnskog.C68_second_order`, `ChapmanEnskog.C68_post_collision`, `ChapmanEnskog.C68_moment_relaxes`, `ChapmanEnskog.C68_take_moments`, `ChapmanEnskog.C68_conservation`, `ChapmanEnskog.C68_navier_stokes`, `ChapmanEnskog.C68_navier_stokes_incompressible`, `ChapmanEnskog.C68_two_rates`, `ChapmanEnskog.C68_single_rate`, `ChapmanEnskog.C68_dynamic_viscosity`, `ChapmanEnskog.C68_kinematic_viscosity`, `ChapmanEnskog.C68_bulk_viscosity_value`, `ChapmanEnskog.C68_bulk_viscosity_wrong`, `ChapmanEnskog.C68_conditions`, `ChapmanEnskog.C68_newtonian_conditions`, `ChapmanEnskog.C68_conditions_incomplete`, `ChapmanEnskog.C68_sigma_value`, `ChapmanEnskog.C68_sigma_newtonian`, `ChapmanEnskog.C68_viscosity_of_method`, `ChapmanEnskog.C68_method_conditions`, `ChapmanEnskog.C68_method_bulk`, `ChapmanEnskog.C68_rate_from_viscosity`, `ChapmanEnskog.C68_single_product`, `ChapmanEnskog.C68_no_shear`, `ChapmanEnskog.C68_two_viscosities`, `ChapmanEnskog.C68_conditions_miss_diagonal`, `ChapmanEnskog.C68_error_terms`, `SteadyState.C69_hierarchy_solves`, `SteadyState.C69_hierarchy_unique`, `SteadyState.C69_recombined`, `SteadyState.C69_hierarchy_sum`, `SteadyState.C69_exact`, `SteadyState.C69_steady_state`, `SteadyState.C69_conserved`, `SteadyState.C69_generating_function`, `SteadyState.C69_srt_hierarchy`, `SteadyState.C69_coefficients`, `SteadyState.C69_srt_recombined`, `SteadyState.C69_euler`, `SteadyState.C69_first_order`, `SteadyState.C69_post_collision`, `SteadyState.C69_viscosities`, `SteadyState.C69_bulk_viscosity_undetermined`, `InKernel.C70_axis`, `InKernel.C70_border`, `InKernel.C70_directions`, `InKernel.C70_every_link_covered`, `InKernel.C70_step`, `InKernel.C70_run`, `InKernel.C70_order_irrelevant`, `InKernel.C70_equals_boundary_sweep`, `InKernel.C70_mass_conserved`, `InKernel.C70_two_array_patterns_race`, `InKernel.C70_long_velocities_missed`, `Simplex.C71_loop_terminates`, `Simplex.C71_in_simplex`, `Simplex.C71_first_cell_is_projection`, `Simplex.C71_every_cell_is_projection_partial`, `Simplex.C71_mask_not_reset`, `Simplex.C71_full_mask`, `Simplex.C71_two_pure_cells`, `Simplex.C71_simplex_points_stay`, `OldroydB.C72_source_symmetric`, `OldroydB.C72_source_objective`, `OldroydB.C72_steady_shear`, `OldroydB.C72_force_is_divergence`, `OldroydB.C72_no_net_force`, `OldroydB.C72_reaction`, `OldroydB.C72_faces_isotropic`, `OldroydB.C72_reaction_fails`, `OldroydB.C72_continuity_simultaneous`, `OldroydB.C72_conditional`, `OldroydB.C72_flux_read_back`, `OldroydB.C72_default_flux_is_zero`, `OldroydB.C72_extrapolation_exact`, `OldroydB.C72_extrapolation_orders`, `OldroydB.C72_flux_divergence`, `Geometry.C73_round`, `Geometry.C73_two_middles`, `Geometry.C73_profile`, `Geometry.C73_velocity_along_axis`, `Geometry.C73_even_symmetric`, `Geometry.C73_channel_is_poiseuille`, `Geometry.C73_odd_one`, `Geometry.C73_odd_three`, `Geometry.C73_one_row`, `Geometry.C73_one_dimension`, `Geometry.C73_inflow_3d`, `Geometry.C73_inflow_other`, `Geometry.C73_inflow_2d`, `Geometry.C73_inflow_2d_off_centre`, `Geometry.C73_walls_match_velocity`, `Geometry.C73_walls_symmetric`, `Geometry.C73_walls_odd`, `Geometry.C73_sphere`, `Geometry.C73_shear`, `Geometry.C73_shear_small`, `Geometry.C73_channel_drive`, `Geometry.C73_channel_errors`, `Geometry.C73_duct_cells`, `Geometry.C73_pipe_cells`, `Geometry.C73_plane_channel`, `Geometry.C73_pressure_difference`, `Geometry.C73_poiseuille`, `Geometry.C73_poiseuille_unique`, `Geometry.C73_vorticity`, `Geometry.C73_vorticity_gradient`, `Geometry.C73_vorticity_small`, `SplitGroups.C74_precomputed`, `SplitGroups.C74_groups`, `SplitGroups.C74_separate`, `SplitGroups.C74_two_arrays`, `SplitGroups.C74_inplace`, `SplitGroups.C74_groups_fit`, `SplitGroups.C74_inplace_needs_condition`, `FastBackward.C75_backward`, `FastBackward.C75_values`, `FastBackward.C75_raw_inverse`, `FastBackward.C75_raw_moments`, `FastBackward.C75_long_links`, `FastBackward.C75_four_dimensions`, `QuadraticEq.C76_match_iff`, `QuadraticEq.C76_match_values`, `QuadraticEq.C76_match_error`, `QuadraticEq.C76_round_trip`, `QuadraticEq.C76_maxwellian`, `QuadraticEq.C76_third_order`, `QuadraticEq.C76_speed_clash`, `QuadraticEq.C76_d2v37`, `QuadraticEq.C76_constraints`, `QuadraticEq.C76_pressure`, `QuadraticEq.C76_d2q9`, `QuadraticEq.C76_d2q9_weights`, `QuadraticEq.C76_d2q9_other`, `QuadraticEq.C76_parameters`, `QuadraticEq.C76_values_perm`, `FdStencils.C77_gradient`, `FdStencils.C77_second`, `FdStencils.C77_second_inconsistent`, `FdStencils.C77_laplacian`, `FdStencils.C77_laplacian_not_isotropic`, `FdStencils.C77_mixed`, `FdStencils.C77_supported`, `FdStencils.C77_one_dim`, `PostProcessing.C78_balance`, `PostProcessing.C78_unique`, `PostProcessing.C78_agree`, `PostProcessing.C78_defined`, `PostProcessing.C78_sum`, `PostProcessing.C79_intersections`, `PostProcessing.C79_touching`, `PostProcessing.C79_touching_vertical`, `PostProcessing.C79_horizontal`, `PostProcessing.C79_lens`, `PostProcessing.C79_lens_swap`, `PostProcessing.C79_lens_labels`, `PostProcessing.C80_crossing`, `PostProcessing.C80_apart`, `PostProcessing.C80_ragged`, `PostProcessing.C80_endpoint`, `PostProcessing.C80_wrong_point`, `PostProcessing.C80_closest`, `PostProcessing.C80_triple_points`, `PostProcessing.C80_none`, `PostProcessing.C80_angle`, `PostProcessing.C80_parallel`, `PostProcessing.C80_angles`, `PsmKernel.C81_two_arrays`, `PsmKernel.C81_single`, `PsmKernel.C81_fraction_zero`, `PsmKernel.C81_in_place`, `PsmKernel.C81_in_place_wrong`, `PsmKernel.C81_stale_forces`, `PsmKernel.C81_left_out`, `CopyBoundaries.C82_neumann`, `CopyBoundaries.C82_order`, `CopyBoundaries.C82_thin_wall`, `CopyBoundaries.C82_constant`, `CopyBoundaries.C82_halo`, `Boyer.C83_unique`, `Boyer.C83_no_spreading`, `Boyer.C83_lambda`, `Boyer.C83_theta`, `Boyer.C83_absent`, `Boyer.C83_consistent`, `Boyer.C83_uncorrected`, `Boyer.C83_equal`, `Simplify.C84_common`, `Simplify.C84_cse`, `Simplify.C84_cse_drops`, `Simplify.C84_cse_partial`, `Simplify.C84_strategy`, `Simplify.C84_hints`, `Simplify.C84_common_twice`, `Simplify.C84_refused`, `HeatSolver.C85_any_order`, `HeatSolver.C85_stages`, `HeatSolver.C85_block`, `HeatSolver.C85_midpoint`, `HeatSolver.C85_three_fields`, `HeatSolver.C85_conduction`, `HeatSolver.C85_transport`, `HeatSolver.C85_steady`, `HeatSolver.C85_growth`, `Microchannel.C86_errors`, `Microchannel.C86_heat`, `Microchannel.C86_flow`, `Microchannel.C86_arrays`, `Microchannel.C86_period`, `HighDensityRatio.C87_constant`, `HighDensityRatio.C87_chemical_potential`, `HighDensityRatio.C87_pressure`, `HighDensityRatio.C87_maxwell`, `HighDensityRatio.C87_double_well`, `HighDensityRatio.C87_minima`, `PhaseKernels.C88_mass`, `PhaseKernels.C88_run`, `PhaseKernels.C88_mobilities`, `PhaseKernels.C88_dissipation`, `PhaseKernels.C88_sum`, `PhaseKernels.C88_sum_preserved`, `PhaseKernels.C88_uniform`, `PhaseKernels.C88_pressure_momentum`, `PhaseKernels.C88_extra_force`, `PhaseKernels.C88_mu_momentum_partial`, `PhaseKernels.C88_mu_bulk_wrong`, `PhaseKernels.C88_uniform_force`, `PhaseKernels.C88_store`, `PhaseKernels.C88_pressure_symmetric`, `PhaseKernels.C88_pressure_uniform`, `PhaseKernels.C88_pressure_force`, `PhaseKernels.C88_mobilities_error`, `IterativeInit.C89_collision`, `IterativeInit.C89_mass`, `IterativeInit.C89_momentum`, `IterativeInit.C89_uniform`, `IterativeInit.C89_converges`, `IterativeInit.C89_force_wrong`, `IterativeInit.C89_success`, `IterativeInit.C89_failure`, `IterativeInit.C89_success_iff`, `IterativeInit.C89_bad_interval`, `IterativeInit.C89_rate_ignored`, `IterativeInit.C89_residuum`, `IterativeInit.C89_residuum_wrong`, `GhostLayers.C90_steps`, `GhostLayers.C90_phase_field`, `GhostLayers.C90_direct`, `GhostLayers.C90_nestler`, `GhostLayers.C90_returned`, `GhostLayers.C90_box`, `GhostLayers.C90_sync_needed`, `PhaseFieldRun.C91_phase_field`, `PhaseFieldRun.C91_step`, `PhaseFieldRun.C91_methods`, `PhaseFieldRun.C91_errors`, `Nestler.C92_step`, `Nestler.C92_bulk`, `Nestler.C92_interfacial_sum`, `Nestler.C92_two_phases`, `Nestler.C92_absent`, `Nestler.C92_collision`, `Nestler.C92_conservation`, `Nestler.C92_sum_of_phases`, `Nestler.C92_absent_step`, `Nestler.C92_planar_interface`, `Nestler.C92_projection`, `Nestler.C92_run_projected`, `Nestler.C92_errors`, `Nestler.C92_velocity`, `Nestler.C92_methods`, `Nestler.C92_third_phase_arises`, `Derivatives.C93_laplacian`, `Derivatives.C93_gradient`, `Derivatives.C93_isotropy`, `Derivatives.C93_laplacian_symmetric`, `Derivatives.C93_gradient_antisymmetric`, `Derivatives.C93_errors`, `Derivatives.C93_second_weights`, `Derivatives.C93_second_weights_2d`, `Derivatives.C93_first_weights`, `Derivatives.C93_first_weights_2d`, `Derivatives.C93_second_15`, `CentralTransforms.C94_transforms`, `CentralTransforms.C94_offered_sets`, `CentralTransforms.C94_low_dimension_index_error`, `CentralTransforms.Witness.C94_2d_aliases`, `HeCentral.C95_central_moments`, `HeCentral.C95_forcing`, `HeCentral.C95_integral`, `HeCentral.C95_momentum`, `HeCentral.C95_offered_sets`, `HeCentral.D3Q15.C95_d3q15`, `SymbolicForce.C96_value`, `SymbolicForce.C96_inputs`, `SymbolicForce.C96_clash_free`, `SymbolicForce.C96_capture`, `SymbolicForce.C96_cycle`, `SymbolicForce.C96_saturated_cycle`, `SymbolicForce.C96_capture_witness`, `SymbolicForce.C96_in_front`, `RawTransforms.C97_matrix`, `RawTransforms.C97_matrix_monomials`, `RawTransforms.C97_chimera_exists`, `RawTransforms.C97_chimera`, `RawTransforms.C97_agree`, `RawTransforms.C97_offered_sets`, `RawTransforms.Witness.C97_too_many_monomials`, `RawTransforms.Witness.C97_background_differs`, `GpuCopy.C98_kernel`, `GpuCopy.C98_gpu_is_cpu`, `GpuCopy.C98_overlap`, `GpuCopy.schedule_exists`, `CentralForcing.C99_terms`, `CentralForcing.C99_mass_momentum`, `CentralForcing.C99_second`, `CentralForcing.C99_second_edm`, `CentralForcing.C99_populations`, `CentralForcing.C99_guo_raw`, `CentralForcing.C99_symmetric`, `CentralForcing.Example.C99_guo_differs`
