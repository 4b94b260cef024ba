# Formal model of gsKLShell – design

Everything is in `lean/` (Lake project `Verif`, Lean 4.33.0, Mathlib modules
imported one at a time).  Layout:

| directory | content |
|---|---|
| `Verif/Model/*.lean`  | definitions that follow the C++ text; each cites file and lines of `/repo` and lists its simplifications |
| `Verif/Spec/*.lean`   | small specifications that do not use the model's helpers (only where a property needs one) |
| `Verif/Lemmas/*.lean` | helper lemmas |
| `Verif/Props/*.lean`  | property theorems, named `Cnn_…`, each with an `example` showing that its hypotheses are met by a concrete non-trivial case |

Naming: `Cnn_name` is a theorem about property Cnn; `_partial` marks a theorem
which states less than the property (its doc comment says what is missing);
`_violated` marks a proof that the *code* (as modelled) does not have the
property, by a concrete witness.

## Trusted base

* The Lean 4.33.0 kernel; axioms at most `propext`, `Classical.choice`,
  `Quot.sound` (what Mathlib itself uses).  No own axioms, no `sorry`, no
  `native_decide`, no `bv_decide`.
* The transcription C++ → Lean.  It was made by reading `/repo`; nothing is
  extracted mechanically.  Every definition cites the lines it follows.
* **Numbers.** C++ `T` (double) is modelled by `ℝ`.  Rounding, overflow and NaN
  are *not* modelled; the tests that the code makes against tolerances are
  modelled as the same tests over `ℝ`.  Lean's `x/0 = 0` is not relied upon:
  every theorem that divides states the denominator's non-vanishing as a
  hypothesis, or the model returns a distinct outcome.
  `index_t`/`short_t` are `ℕ` or `ℤ` without overflow.
* **Undefined behaviour** is a value of its own: `Outcome.ub` (out-of-bounds
  unchecked access, null dereference, read of an uninitialised value, infinite
  loop); exceptions (`GISMO_ERROR`, `GISMO_ENSURE`, `std::out_of_range`) are
  `Outcome.throws`.  `GISMO_ASSERT` is active only in debug builds; where it
  matters the model describes the release build and the text says so.
* **Not modelled**: the G+Smo core (B-spline evaluation, expression assembler's
  quadrature loop, sparse matrices, Eigen's eigen-solver and inverse – they are
  represented by their mathematical meaning at one quadrature point), I/O of
  the XML text itself (only the decision logic and indices), threads
  (`util::gsThreaded`), plotting, pybind, time measurements, the Python
  bindings and examples.

## Outcome type

`Outcome α = ok a | throws | ub` with the usual monad; theorems about
memory-safety say "the outcome is not `ub`".


## Plan per property

Kinds of argument: **alg** = algebraic identity over ℝ (`ring`/`field_simp`
after unfolding), **der** = `HasDerivAt` proof, **ind** = induction over
operation sequences/lists, **ref** = refinement to an abstract spec, **dec** =
decision logic by case analysis.  "viol." = I expect the code to violate the
property; then the negation is proved with a witness and the largest true part
is kept as `_partial`.

| id | model | statement/proof |
|---|---|---|
| C01 | `Model/Ids`: enums as inductive types with code, `encode`, `decode` on ℕ | dec: round trip both ways, injectivity |
| C02 | `Model/Ids`: `factory rho mat comp impl npars : Outcome (Option Kind)` (two copies, one per overload) | dec against a table spec |
| C03 | `Model/Ids`: `xmlPut`, `xmlGet` on kinds | dec; viol. (non-analytical kinds cannot be written; a TFT wrapper around one is a null dereference) |
| C04 | `Model/Material`: parameter list with unset (null) slots | ind over setter sequences vs a finite-map spec; viol. for the pointer overload of the indexed setter (UB) |
| C05 | `Model/Material`: state of registered geometries | viol.; partial for `hasDeformed` and states where both coincide |
| C06 | `Model/Material`: TFT constructor | viol.; partial when a deformed geometry is registered as well |
| C07 | `Model/Container`: heap of materials + list of slots | ref/ind; viol. for out-of-range `set` |
| C08 | `Model/Container`: `readXml` fold over groups | ref: last group wins; viol. for index range |
| C09 | `Model/Layout`: column index, allocated sizes per quantity | dec/ind; viol. for transformations, theta and gamma with ≥2 heights |
| C10 | `Model/Material`: evaluators hold a reference to the material | viol.; partial for the most recently built evaluator |
| C11 | `Model/Material` | viol. |
| C12 | `Model/Material`: loop that makes pieces | viol.; partial for the other constructor and for ≤1 patch |
| C13, C14, C16 | `Model/Geometry`: `V3` vectors, metric at a point | alg |
| C15 | `Model/Geometry` 2D branch | viol.; partial: holds iff metric squares to identity |
| C17 | `Model/Geometry` `J0sq` | dec |
| C18–C22 | `Model/Linear` | alg/dec; C22 viol. |
| C23–C26 | `Model/Integrate` | integrals from Mathlib `intervalIntegral`; C26 viol. |
| C27–C33 | `Model/Composite` | ind over layer lists, integrals; C30, C32, C33 viol. |
| C34–C36 | `Model/Transform` | alg; C35 viol. |
| C37–C43 | `Model/TFT`, `Model/RootFind` | dec/alg/der; C37 (unknown option), C39 (linear), C40, C41, C42, C43 viol. |
| C44–C59 | `Model/Hyper`, `Model/Spectral` | alg/der; C54–C56, C58 viol. |
| C60, C61 | `Model/StressFun` | dec/alg; C60 viol., C61 flexural part viol. |
| C62 | `Model/FunSum` | ind; empty sum viol. |
| C63–C66 | `Model/Variation` | der; C64 (field variant), C65 (`ovar2dot`) viol. |
| C67–C70, C80, C82 | `Model/Assembler` state machine | ind/dec; viol. parts |
| C71–C75 | `Model/WeakForms` pointwise integrands | alg/der; viol. parts |
| C76–C79, C81 | `Model/Solution` | ind; C77, C81 viol. |
| C83 | `Model/StressFun` strain output in the local frame | alg; flexural part viol. |
| C84 | `Model/StressFun` declared rows against returned rows | cases; displacement, directions and laminates viol. |
| C85 | `Model/FunSum` object identity and printing | dec; viol. |
| C86 | `Model/Assembler` lists of coupled interfaces | dec/ind; viol. for the default options and strong coupling |
| C87 | `Model/Queries` interface errors | alg; viol. for normals, partial for positions |
| C88 | `Model/Queries` interface tests by topology | dec; viol. |
| C89 | `Model/Layout` thickness stretch of all points | dec/ind; viol. for two or more points |
| C90 | `Model/DWR` goal and dual on the domain | alg (derivatives along test functions); viol. for shear stretch, non-linear flexural stress, heights, eigenvalue goals |
| C91 | `Model/DWR` on boundaries | alg; viol. for two goals |
| C92 | `Model/DWR` on points | alg; viol. for stretches, principal stresses, membrane force |
| C93 | `Model/DWR` under reparametrisation | alg; viol. except for displacements on the domain and along sides |
| C94 | `Model/DWRError` estimates | alg; viol. for loads, tractions, pressure |
| C95 | `Model/DWRError` element sums | ind; viol. with tractions |
| C96 | `Model/DWRError` distribution of point loads | ind; viol. for several patches |
| C97 | `Model/DWRError` squared errors | alg; viol. with tractions or loads |
| C98 | `Model/DWRError` sequences of calls | dec; viol. for function-wise errors |
| C99 | `Model/DWREigen` modal estimate and norm | alg; viol. for element errors, function-wise errors |
| C100 | `Model/DWREigen` buckling estimate and norm | alg; viol. for curved geometries and moments |
| C101 | `Model/DWRObject` lifetime | ind over programs; viol. for copies, empty objects |
| C102 | `Model/DWRObject` setters, numbering | ind; viol. for updateBCs, continuity |
| C103 | `Model/DWRObject` helper | alg; viol. for non-symmetric tangents, prescribed displacements |
| C104 | `Model/Dirichlet` values of the space | ind over histories; viol. after clearing calls |
| C105 | `Model/Dirichlet` sizes | ind over histories; viol. for direct option changes |
| C106 | `Model/Balance` rows of the residual | alg; rotations by orthonormal frames |
| C107 | `Model/Balance` mixed-integration-point matrix | alg; viol. by shared materials |
| C108 | `Model/Balance` mass matrix | alg; viol. for lumping |
| C109 | `Model/Balance` load rows | alg; viol. for pressure and area change |
| C110–C112 | `Model/Principal`: selection after the solver, stored basis, tension-field outputs | alg/dec, solver as relation; viol. |
| C113 | `Model/Outputs` dispatch and sizes of all outputs of all materials | cases; viol. |
| C114 | `Model/Explicit` exchange of the registered geometries | induction over calls; viol. |
| C115 | `Model/Deform` thickness entry, stretches, volume ratio | alg; viol. |
| C116 | `Model/TFTSection` two-height integration of the wrapper | alg, FTC for one integral; viol. |
| C117 | `Model/Penalty` stiffness in the penalty factors | coordinates in the local frame, alg; viol. |
| C118 | `Model/ExprMat` reads and writes of the expression matrices | lists of writes, index arithmetic; viol. |
| C119 | `Model/Integrate` integration of principal stresses over the height | extremal property of principal values, odd sums over symmetric rules; viol. |
| C120 | `Model/DMatrix` storage of the derivative of the tangent | index arithmetic, symmetry of second derivatives; viol. |
| C121 | `Model/DPoints` loop of `eval3D_dmatrix` over points and heights with the member matrices it reads and `Cfun` refills | induction over heights and points with the cached columns as state; viol. |
| C122 | `Model/Shortcut` zero-stress shortcut in front of the stress formulas | scaling of metrics, inverse and invariants; bound of the largest entry from below by the thickness entry; viol. |
| C123 | `Model/ShellTangent` internal force and tangent of a hyperelastic shell at a quadrature point | rate of the metric at a height, chain rule through stress and thickness integration, C66 for the strain variations; viol. |
| C124 | no new model | transformation of metric members and invariants; tangent via derivative of the force (C123); viol. |
| C125 | `Model/Planar` two-dimensional metric, materials, residual, tangent and loads | comparison with the three-dimensional models on the flat sheet; iff characterisations; viol. |
| C126 | no new model | simultaneous diagonalisation of the two metrics and invariance under parameter changes; viol. |
| C127 | no new model | monotone function of the volume ratio, intermediate values; exact error recursion of Newton; viol. |
| C128 | `Model/Project` full solution vector, projection | induction over the loops, invariant over call sequences; viol. |
| C129 | `Model/Project` principal values of the assembler | C110 with one point; viol. |
| C130 | `Model/Hyper`, `Model/Spectral` at a homogeneous state, closed forms transcribed in `Spec/Benchmark` | every law is brought to Ogden form, the lateral equation is strictly increasing; intermediate value theorem; interval bounds by rational powers. Violated at the shortcut. |
| C131 | `Model/System` (moduli by `evalInto`, matrix over degrees of freedom) | bilinearity of the strain variations, sums over layers and nodes as squares, rank-nullity; viol. laminates with skew tangents, one-point rule, membranes. |
| C132 | `Model/DWRThreads` strided loops of the threads, order of the critical sections | multisets: the blocks of all threads together are the serial list; adding commutes. |
| C133 | `Model/Balloon`, `Model/Field` residual as an integral over the parameters | divergence theorem on the patch, isotropic stress on a sphere, fundamental lemma with a bump function; viol. |
| C134 | `Model/Plate` forms of a flat plate | integration by parts on rectangles, completeness of sine products; viol.: orthotropic layer at 45 degrees. |
| C135 | `Model/Buckling` tangent of a stretched plate | C134 methods with the geometric part; viol.: one thickness point. |
| C136 | `Model/Plate` energy of pinned plates, Galerkin solutions | Wirtinger inequality, integration by parts, finite-dimensional linear algebra |
| C137 | `Model/Cylinder` residual of a deformed surface with pressure | integration by parts with a weight on the angle; 2x2 characteristic polynomial. |
| C138 | `Model/Threads` accesses of the threads of an assembly to the shared registered geometry and the data per thread, any interleaving | simulation of each thread by its own accesses; viol. |
| C139 | `Model/Solve` linear solution and Newton loop of the tutorial and examples | mean value inequality on segments, contraction; viol. |
| C140 | `Model/Examples` references of the DWR examples, Neumann terms, `Kdiff` | integration by parts twice, positive energy, sine completeness, counts of pairs with m²+n² below a bound; tables beyond index 68, out of range, reciprocals, singular matrix, sign |
| C141 | `Model/TFT` against the relaxed problem of `Spec/Relaxed` | minimisation over a closed cone, monotonicity, explicit witnesses; 3 viol. |
| C142 | `Model/TFTSearch` candidates and scan of `eval_theta` | derivative of the energy along the angles, minimum property, bracket of Brent; viol. in skew coordinates. |
| C143 | `Model/TFTSearch` `rootOf`, `Model/TFT` `thetaInterval` | polar form of `atan2`; viol. by an exact state. |
| C144 | `Model/PatchTest` Neumann terms on four sides, residual of planar problems | stress is a tensor under changes of parameters, divergence theorem on the rectangle, orientation of the normal; viol. by exact integrals. |
| C145 | `Spec/Uniaxial`, `Model/PatchTest`, `Model/Solution` boundary value problem of `UAT_numerical` | divergence theorem on the square, closed forms of C130; partial. |
| C146 | `Spec/Reaction`, `Model/Solution`, `Model/PatchTest` force on a side | sum of the weak form over the functions of the side; viol. |
| C147 | `Model/PenaltySystem` linear system with weak boundary and interface conditions | sums of squares of linear functionals (rates of normals and outer normals), abstract penalty limit on finite-dimensional spaces, minimum of a Rayleigh quotient; viol. |
| C148 | `Model/SameSheet` moduli of the linear problem for the non-linear class | tangents at the undeformed state (C47, C52), telescoping of the ply sums, change of basis in coordinates of the local frame; viol. skew tangents (laminate), curved shells and one-point rules (non-linear class). |
| C149 | `Model/ShellSystem` residual and tangent as functions of the unknowns, section laws of the linear material and of laminates | smoothness of the strains (normal) in the unknowns, directional derivatives of C65/C66, integration of the gradient, Newton with constants from continuity of the second derivative, inverse function theorem for small loads; viol. unsymmetric laminates. |
| C150 | `Model/PlanarSystem` residual and tangent of a planar sheet of nonlinear material as functions of the unknowns | gradient from derivatives along the coordinate axes and C45/C48; definiteness from C126 and the sign of the geometric part; Newton from C139. |
| C151 | `Model/AtTensor` evaluation at a given tensor, functions of the strain | same members, derivative of the stress along lines of tensors, continuity of the closeness test; viol. |
| C152 | `Model/LoadedShell` pressure and foundation in the nonlinear system | derivative by lines, C139 with an inexact tangent, exact iterates of a doubling loop, symmetry of second derivatives; viol. sign of the foundation vector, pressure not conservative |
| C153 | `Model/DWRShell` system, goal, dual and estimate of one shell | Taylor with locally uniform constants, symmetric tangent (C149), derivative of the goal (C90), residual form of the estimate (C94); viol. by a strip. |
| C154 | `Model/HyperShell` section quantities of a hyperelastic material as a law of `Model/ShellSystem` | Derivative along lines (C148) and smoothness, inexact Newton with varying error, second derivatives of a potential are symmetric; viol. by the rate of the third fundamental form of a stretched and of a bent cylinder. |
| C155 | `Model/JoinedShell` residual, tangent and linear matrix of a multi-patch shell with weak C0/C1 interfaces | gradient of the springs, smoothness of the sides incl. the coded second variations, inexact Newton with a defect that vanishes with the folding; viol. |
| C156 | `Model/JointBalance` rows of both patches at a weak interface | virtual work of constant fields and rotations, rotation of every ingredient of the interface terms; viol.: gap between undeformed edges, in-plane stress stiffness |
| C157 | `Model/PenaltyState` penalty factor as a function of the deformed state | rigid motion leaves the moduli, closed form for the stretched square, product rule; tangent, strength and smoothness violated. |
| C158 | `Model/HeldShell` residual, tangent and linear system with weak boundary conditions | gradient of the opposite springs, derivative of the clamping terms, inverse function theorem for small loads, explicit one-unknown plate; viol. |
| C159 | `Model/JoinedSheet` residual, tangent, linear system of planar patches with weak interfaces and sides | gradients of quadratic springs, generalised Rayleigh quotient and escape of Newton iterates, multipliers for the penalty limit; viol. |
| C160 | `Model/HeldShell` Newton iterates of a shell with weakly clamped sides | first-order expansion of the iterates, self-adjointness of the iteration in the energy norm, contraction by a generalised Rayleigh quotient; viol. |
| C161 | `Model/PlaneSheet` compressible materials with a thickness stretch per point | least energy over the thickness, implicit function theorem for the stretch, then the planar system of C150; strongly compressed strip |
| C162 | `Model/PlaneShell` compressible materials at the heights of a shell | metric at a height is a Gram matrix, smooth condensed moduli, then as C154; piece of a cylinder |
| C163 | `Model/Newton`, `Model/PlaneSheet` | contraction of the step near rest for all three materials; Lipschitz dependence of residual and tangent on the stretches; Newton's method with noise |
| C164 | `Model/PlaneShell` | stretches of families of metrics; smoothness of residual and tangent in state and stretches of all heights; Newton's method with noise, the rest of the tangent counted as noise |
| C165 | `Model/Wrinkled` membranes with the tension-field wrapper | energy left by wrinkles as an infimum, its convexity inequality (C141), and that tension makes the quadratic part of the strain cost energy; gradient by squeezing between the linearisation and the energy with frozen wrinkles; growth of the energy gives minimisers |
| C166 | `Model/WrinkledTangent` tangent of membranes with the tension-field wrapper | implicit function theorem for the angle of the wrinkles (its derivative is the tension along the wrinkles plus a shear stiffness, so positive); semidefiniteness and the idle displacements by Cauchy-Schwarz in the energy of the material; local Newton theorem; a strict local minimum of a convex energy is the only one |
| C167 | `Model/BucklingProgram` the two eigenvalue solvers, the difference of the matrices, the returned value | coordinates in eigenvectors, Courant-Fischer by a dimension count, derivative of the tangent along the load, Weyl's inequality for the limit |
| C168 | `Model/ModalProgram` matrices of a basis, the two solvers, the scaled eigenvectors, the printed row | Courant-Fischer by dimension counts, spectral theorem for two forms, bilinearity of the forms in the coefficients, C99 |
| C169 | `Model/BucklingTable` tangent of a basis, the two solvers, the scaled eigenvectors, the printed row | bilinearity of the forms, the row in terms of the matrices of the finer basis, Courant-Fischer for the sign |
| C170 | `Model/LinearTable` the three linear systems, goal and dual on the domain and at points, the printed row | goal and dual as linear functionals, C94 for the two discrete problems |
| C171 | `Model/ParamText` `%f` with six decimals and `%e` with seven digits as nearest decimal numbers | rounding bounds; the load scales with the flexural stiffness; C140 |
| C172 | `Model/OgdenReference` the Ogden terms of the programs; `Model/Spectral` | derivatives of the seven energies at unit stretches, projection on any orthonormal basis |

## What is modelled

| file | definitions | sources | subject |
|---|---|---|---|
| `Model/Assembler.lean` | 36 | gsThinShellAssembler.hpp, gsThinShellAssembler.h | State of the assembler |
| `Model/AtTensor.lean` | 18 | gsMaterialMatrixNonlinear.hpp, gsMaterialMatrixLinear.hpp, gsMaterialMatrixBaseDim.hpp | Materials evaluated at a given deformation tensor |
| `Model/Balance.lean` | 15 | gsThinShellAssembler.hpp | Rows of the assembled vector and matrices |
| `Model/Balloon.lean` | 3 | gsThinShellAssembler.hpp | Residual under pressure as an integral over the parameters |
| `Model/Buckling.lean` | 4 | gsThinShellAssembler.hpp, gsMaterialMatrixIntegrate.hpp, gsMaterialMatrixLinear.hpp | The tangent matrix of a deformed plate |
| `Model/BucklingProgram.lean` | 4 |  | The linear buckling analysis of the example program |
| `Model/BucklingTable.lean` | 3 | gsThinShellAssembler.hpp | The table of the buckling example |
| `Model/Composite.lean` | 18 | gsMaterialMatrixComposite.hpp, getMaterialMatrix.h | The laminate material |
| `Model/Container.lean` | 15 | gsMaterialMatrixContainer.hpp, gsMaterialMatrixContainer.h | The material container |
| `Model/Cylinder.lean` | 2 | gsThinShellAssembler.hpp | Residual of a deformed surface |
| `Model/DMatrix.lean` | 5 | gsMaterialMatrixNonlinear.hpp, gsMaterialMatrixTFT.hpp | Storage of the derivative of the tangent |
| `Model/DPoints.lean` | 7 | gsMaterialMatrixBaseDim.hpp, gsMaterialMatrixNonlinear.hpp | The derivative of the tangent at several points |
| `Model/DWR.lean` | 37 | gsThinShellAssemblerDWR.hpp, gsThinShellAssemblerDWR.h, gsMaterialMatrixLinear.hpp, gsMaterialMatrixNonlinear.hpp | Goals and duals of the goal-oriented error estimator |
| `Model/DWREigen.lean` | 21 | gsThinShellAssemblerDWR.hpp, gsThinShellUtils.h | Error estimates for eigenvalue problems |
| `Model/DWRError.lean` | 25 | gsThinShellAssemblerDWR.hpp | Error estimates of the goal-oriented error estimator |
| `Model/DWRObject.lean` | 23 | gsThinShellAssemblerDWR.h, gsThinShellDWRHelper.h, gsThinShellAssemblerDWR.hpp, gsThinShellAssembler.hpp | The error estimator as an object |
| `Model/DWRShell.lean` | 10 | gsThinShellDWRHelper.h, gsThinShellAssemblerDWR.hpp, gsThinShellAssembler.hpp | The error estimator on a nonlinear shell |
| `Model/DWRThreads.lean` | 4 | gsThinShellAssemblerDWR.hpp | Distribution of point loads over elements with several threads |
| `Model/Deform.lean` | 4 | gsMaterialMatrixBaseDim.hpp, gsMaterialMatrixNonlinear.hpp, gsMaterialMatrixLinear.hpp | The deformation tensor output |
| `Model/Dirichlet.lean` | 17 | gsThinShellAssembler.hpp, gsThinShellAssembler.h | Prescribed displacements and sizes of the systems |
| `Model/Examples.lean` | 19 | gsThinShellAssembler.hpp | Reference solutions of the example programs |
| `Model/Explicit.lean` | 12 | gsMaterialMatrixTFT.h, gsMaterialMatrixBaseDim.hpp, gsMaterialMatrixTFT.hpp | The explicit tension field |
| `Model/ExprMat.lean` | 18 | gsThinShellUtils.h | The matrices of the expressions on discrete spaces |
| `Model/Field.lean` | 3 | gsMaterialMatrixBaseDim.hpp | Vector fields of the parameters |
| `Model/FunSum.lean` | 18 | gsFunctionSum.h | Sums of functions |
| `Model/Geometry.lean` | 23 | gsMaterialMatrixBaseDim.hpp, gsMaterialMatrixLinear.hpp | Metrics and bases of a surface at one point |
| `Model/HeldShell.lean` | 9 | gsThinShellAssembler.hpp | The nonlinear system of a shell held by weak boundary conditions |
| `Model/Hyper.lean` | 56 | gsMaterialMatrixNonlinear.hpp, gsMaterialMatrixBaseDim.hpp, gsMaterialMatrixNonlinear.h | Hyperelastic materials: stress and tangent formulas |
| `Model/HyperShell.lean` | 3 | gsMaterialMatrixNonlinear.hpp, gsMaterialMatrixIntegrate.hpp | The nonlinear system of a shell of hyperelastic material |
| `Model/Ids.lean` | 26 | gsMaterialMatrixXml.hpp, gsMaterialMatrixUtils.h, getMaterialMatrix.h, gsMaterialMatrixNonlinear.hpp | Material identification, factory and XML |
| `Model/Integrate.lean` | 8 | gsMaterialMatrixIntegrate.hpp, gsMaterialMatrixIntegrate.h, gsMaterialMatrixLinear.hpp, gsMaterialMatrixUtils.h | Integration through the thickness |
| `Model/JoinedSheet.lean` | 10 | gsThinShellAssembler.hpp, gsMaterialMatrixLinear.hpp, gsMaterialMatrixBaseDim.hpp | The system of planar patches with weak interfaces and weak Dirichlet sides |
| `Model/JoinedShell.lean` | 14 | gsThinShellAssembler.hpp | The nonlinear system of patches joined by penalties |
| `Model/JointBalance.lean` | 15 | gsThinShellAssembler.hpp | Rows of the assembled vector and matrix at an interface |
| `Model/Layout.lean` | 11 | gsMaterialMatrixBaseDim.hpp, gsMaterialMatrixTFT.hpp, gsMaterialMatrixNonlinear.hpp, gsMaterialMatrixLinear.hpp | Layout of point/height results |
| `Model/Linear.lean` | 14 | gsMaterialMatrixLinear.hpp, gsMaterialMatrixBaseDim.hpp, gsMaterialMatrixUtils.h, gsMaterialMatrixEval.hpp | The linear (Saint Venant–Kirchhoff) material |
| `Model/LinearTable.lean` | 11 | gsThinShellAssembler.hpp, gsThinShellAssemblerDWR.h, gsThinShellAssemblerDWR.hpp | The table of the linear example of the error estimator |
| `Model/LoadedShell.lean` | 8 | gsThinShellAssembler.hpp | The nonlinear system of a shell with pressure and foundation |
| `Model/Loads.lean` | 14 | gsThinShellAssembler.hpp | Point loads and point masses |
| `Model/Material.lean` | 32 | gsMaterialMatrixBase.h, gsMaterialMatrixIntegrate.hpp, gsMaterialMatrixTFT.h, gsMaterialMatrixEval.hpp | State of a material object and of the evaluators built on it |
| `Model/ModalProgram.lean` | 7 | gsThinShellAssembler.hpp, gsThinShellAssemblerDWR.h | The modal analysis of the example program |
| `Model/Newton.lean` | 14 | gsMaterialMatrixNonlinear.hpp, gsMaterialMatrixBaseDim.hpp | Thickness stretch of compressible materials and its users |
| `Model/OgdenReference.lean` | 1 |  | The Ogden parameters of the example and the unit tests -/ |
| `Model/Outputs.lean` | 29 | gsMaterialMatrixBaseDim.hpp, gsMaterialMatrixNonlinear.hpp, gsMaterialMatrixLinear.hpp, gsMaterialMatrixComposite.hpp | Outputs of the material evaluators: dispatch and sizes |
| `Model/ParamText.lean` | 2 |  | Parameters passed as text |
| `Model/PatchTest.lean` | 9 | gsThinShellAssembler.hpp, gsMaterialMatrixNonlinear.hpp, gsMaterialMatrixIntegrate.hpp, gsMaterialMatrixLinear.hpp | Boundary tractions, residuals of planar problems |
| `Model/Penalty.lean` | 3 | gsThinShellAssembler.hpp, gsThinShellUtils.h | The penalty factors of the weak conditions |
| `Model/PenaltyState.lean` | 3 | gsThinShellAssembler.hpp | Penalty factors of a hyperelastic shell in a deformed state |
| `Model/PenaltySystem.lean` | 19 | gsThinShellAssembler.hpp | The linear system with weak boundary and interface conditions |
| `Model/Planar.lean` | 20 | gsThinShellAssembler.hpp, gsMaterialMatrixBaseDim.hpp, gsMaterialMatrixLinear.hpp, gsMaterialMatrixIntegrate.hpp | Planar problems |
| `Model/PlanarSystem.lean` | 14 | gsThinShellAssembler.hpp, gsMaterialMatrixIntegrate.hpp, gsMaterialMatrixNonlinear.hpp | The nonlinear system of a planar sheet |
| `Model/PlaneSheet.lean` | 5 | gsMaterialMatrixNonlinear.hpp | Compressible materials in a planar sheet |
| `Model/PlaneShell.lean` | 3 | gsMaterialMatrixNonlinear.hpp, gsMaterialMatrixIntegrate.hpp | The nonlinear system of a shell of compressible hyperelastic material |
| `Model/Plate.lean` | 4 | gsThinShellAssembler.hpp, gsMaterialMatrixBaseDim.hpp, gsMaterialMatrixIntegrate.hpp | Stiffness, mass and load as integrals over the parameters |
| `Model/Principal.lean` | 15 | gsMaterialMatrixBaseDim.hpp, gsMaterialMatrixTFT.hpp, gsMaterialMatrixLinear.hpp, gsMaterialMatrixNonlinear.hpp | Principal stresses and strains |
| `Model/Project.lean` | 8 | gsThinShellAssembler.hpp | Full solution vector, projection, principal values of the assembler |
| `Model/Queries.lean` | 18 | gsThinShellAssembler.hpp | Area, norms, energy and interface errors |
| `Model/RootFind.lean` | 13 | gsMaterialMatrixTFT.hpp | The scalar root finders of the tension-field material |
| `Model/SameSheet.lean` | 2 | gsMaterialMatrixNonlinear.hpp, gsThinShellAssembler.hpp, gsMaterialMatrixNonlinear.h, gsMaterialMatrixIntegrate.hpp | Moduli of the linear problem for the non-linear material class |
| `Model/ShellSystem.lean` | 13 | gsThinShellAssembler.hpp, gsMaterialMatrixComposite.hpp, gsMaterialMatrixLinear.hpp, gsMaterialMatrixIntegrate.hpp | The nonlinear system of a shell |
| `Model/ShellTangent.lean` | 8 | gsMaterialMatrixNonlinear.hpp, gsMaterialMatrixIntegrate.hpp, gsThinShellAssembler.hpp | Internal force and tangent stiffness of a hyperelastic shell at one quadrature point |
| `Model/Shortcut.lean` | 3 | gsMaterialMatrixNonlinear.hpp | The zero-stress shortcut of the hyperelastic materials |
| `Model/Solution.lean` | 21 | gsThinShellAssembler.hpp | Solution vector, displacement field, deformed geometry, boundary forces |
| `Model/Solve.lean` | 7 |  | The solution loop of the tutorials and examples |
| `Model/Spectral.lean` | 46 | gsMaterialMatrixNonlinear.hpp, gsMaterialMatrixBaseDim.hpp | Spectral (stretch-based) implementation of hyperelastic materials |
| `Model/StressFun.lean` | 17 | gsThinShellFunctions.hpp, gsThinShellFunctions.h, gsThinShellAssembler.hpp | The stress output function |
| `Model/System.lean` | 8 | gsThinShellAssembler.hpp, gsMaterialMatrixComposite.hpp, gsMaterialMatrixIntegrate.hpp, gsMaterialMatrixLinear.hpp | The matrix of the linear problem |
| `Model/TFT.lean` | 32 | gsMaterialMatrixTFT.hpp, gsMaterialMatrixBaseDim.hpp | The tension-field material |
| `Model/TFTSearch.lean` | 7 | gsMaterialMatrixTFT.hpp | The search for the wrinkling angle at one point |
| `Model/TFTSection.lean` | 6 | gsMaterialMatrixLinear.hpp, gsMaterialMatrixTFT.hpp, gsMaterialMatrixIntegrate.hpp, gsMaterialMatrixTFT.h | Section quantities of the tension-field material |
| `Model/Tensor.lean` | 17 |  | Vectors and small tensors |
| `Model/Threads.lean` | 11 | gsMaterialMatrixTFT.hpp, gsMaterialMatrixBaseDim.hpp, gsMaterialMatrixBaseDim.h | Evaluation of one material by several threads |
| `Model/Transform.lean` | 12 | gsThinShellUtils.h, gsMaterialMatrixBaseDim.hpp | Changes of basis for Voigt vectors |
| `Model/Variation.lean` | 31 | gsThinShellUtils.h, gsThinShellAssembler.hpp | Variations of the normal, the boundary vectors and the strains |
| `Model/WeakForms.lean` | 31 | gsThinShellAssembler.hpp, gsThinShellUtils.h | Boundary, interface, pressure and foundation terms |
| `Model/Wrinkled.lean` | 4 | gsThinShellAssembler.hpp, gsMaterialMatrixTFT.hpp, gsMaterialMatrixIntegrate.hpp | The system of a membrane with wrinkles |
| `Model/WrinkledTangent.lean` | 5 | gsThinShellAssembler.hpp, gsMaterialMatrixTFT.hpp, gsMaterialMatrixLinear.hpp, gsMaterialMatrixIntegrate.hpp | The tangent of a membrane with wrinkles |

Parts of `/repo` **not** modelled:

* of `gsThinShellAssemblerDWR`: plotting of the error fields;
* `gsKLShell_.cpp` files, pybind, explicit instantiations, `examples/` and `tutorials/` (except the solution loop, C139, and the references of the DWR examples, C140, the buckling example, C167 and C169, the modal example, C168, the linear DWR example, C170, and the text of the parameters, C171), `python_examples/`,
  `filedata/`, `bash/`, CMake files;
* of `gsThinShellAssembler`: `plotSolution`, the two-dimensional
  `getElasticEnergy`, the time measurement, `constructDisplacement` beyond what C76 and C77 say;
* of `gsMaterialMatrixXml`: the text of the nodes (only which node kinds are written and read);
* threads, except in C132 and C138 (elsewhere `util::gsThreaded` members are ordinary members of one thread);
* the G+Smo core: bases, quadrature rules, dof mapper construction, expression tree evaluation,
  sparse matrices, Eigen.  Where a theorem needs one of them its meaning is a parameter or a
  hypothesis, named in the definition's comment.

## Axioms of the theorems

Obtained with `collectAxioms` on the built environment.

* no axiom at all: `C01_decode_encode`, `C02_overloads_agree`, `C05_hasUndeformed_violated`, `C05_registered`,
  `C06_wrapper_inner`, `C06_wrapper_partial`, `C06_wrapper_violated`, `C11_other_ctors_partial`,
  `C70_add_violated`, `C70_replaced_violated`

* `Quot.sound`, `propext`: `C01_encode_decode`, `C04_positions`, `C04_setter_total`, `C04_size_grows`,
  `C07_alias_follows`, `C07_copy_isolated`, `C07_refines_list`, `C07_set_out_of_range_violated`,
  `C08_out_of_range_violated`, `C08_read_partial`, `C09_injective`, `C102_last_partial`,
  `C105_fewer_violated`, `C105_more_violated`, `C10_last_built_partial`, `C10_mip_violated`,
  `C113_heights_violated`, `C113_laminate_partial`, `C113_linear_partial`,
  `C113_nonlinear_partial`, `C113_tft_heights_violated`, `C113_tft_parameters_violated`,
  `C113_tft_partial`, `C121_closed_partial`, `C12_container`, `C12_container_too_small`,
  `C12_single_material_partial`, `C12_single_material_violated`, `C138_independent`,
  `C138_lost_violated`, `C138_no_race`, `C138_race_violated`, `C22_outputs_partial`,
  `C55_partial`, `C60_field_partial`, `C80_copy_violated`, `C80_move_violated`, `C80_partial`,
  `C80_pointer_violated`, `C84_laminate_violated`, `C85_print_oob_violated`,
  `C85_print_violated`, `C86_partial`, `C86_strong_violated`, `C86_uncoupled_partial`,
  `C86_uncoupled_violated`, `C89_violated`

* `propext`: `C01_encode_injective`, `C02_available`, `C02_linear`, `C02_safe`, `C02_unavailable`,
  `C03_roundtrip_violated`, `C03_unwritable_iff`, `C04_pointer_setter_partial`,
  `C04_pointer_setter_violated`, `C05_hasDeformed_partial`, `C05_hasUndeformed_partial`,
  `C101_copy_violated`, `C101_empty_violated`, `C102_agree_partial`, `C102_bcs_violated`,
  `C102_data_partial`, `C102_pressure_violated`, `C105_ordered_partial`, `C10_reference`,
  `C113_directions_violated`, `C113_laminate_refused`, `C113_laminate_violated`,
  `C113_linear_refused`, `C113_nonlinear_refused`, `C113_principal_strain_violated`,
  `C113_tft_refused`, `C113_tft_transform_violated`, `C114_not_restored_violated`,
  `C114_restored_partial`, `C114_stress_violated`, `C114_unregistered_violated`,
  `C11_eval_ctor_violated`, `C121_numerical_violated`, `C121_single_partial`,
  `C129_sizes_partial`, `C129_sizes_violated`, `C12_single_patch_partial`,
  `C22_outputs_violated`, `C60_always_first_violated`, `C60_first_patch_partial`, `C60_partial`,
  `C60_total_violated`, `C60_violated`, `C80_iff_partial`, `C80_move_partial`, `C80_space`,
  `C84_directions_violated`, `C84_displacement_violated`, `C84_kinds_partial`,
  `C84_laminate_partial`, `C84_partial`, `C84_tft_partial`, `C89_partial`

* `Classical.choice`, `Quot.sound`, `propext`: all other theorems named in `MANIFEST.json` (862).

## Reading notes and limits per property

* **C24** Exactness of the Gauss rule is a hypothesis; the two-point rule is shown to satisfy it.
* **C37** The statement contains the relative tolerance 1e-12 and the stress criterion of the code.
* **C38** The witness of the acceptance violation has both principal strains negative.
* **C42** The partial theorem guarantees a zero within `2*tol` of the returned value.
* **C43** In `C43_violated` the root and scan procedures are parameters; `C43_stale_violated` holds
  for all procedures.
* **C47** Incompressible materials with a Poisson ratio other than ½ behave like an incompressible
  material with modulus `3E/(2(1+ν))`.
* **C52** The iteration is over exact reals; with IEEE numbers a NaN makes the loop test false.
  Stress and stiffness are real functions of the iterate.
* **C53** The eigenvalue solver is a hypothesis (orthonormal eigenvectors and their eigenvalues).  The
  window in which the code uses the limit formula has width 1e-14 (`C53_NH_window`).  Ogden exponents
  are non-zero.
* **C50/C53** The second derivative `d2I2` has wrong entries for index patterns such as (0,2,0,2); they
  are never read for a shell.
* **C61** "Outer fibre" refers to the linear material.
* **C65, C66** `tangent_expr`, `flat`, `symmetrize` (A + Aᵀ) are taken from the core library; the
  solution-field variant of `tvar1` is not modelled.  The mixed moduli enter as
  `Ef_u·B·Em_v` and `Em_u·C·Ef_v`.
* **C67** After a failed vector assembly the assembler's vector is modelled as zero.  The case of no
  free degrees of freedom is not considered.  Matrix and mass assembly reset the vector of the
  expression assembler.
* **C71–C75** Penalty factors and `meas(m_ori)` are parameters of the integrands.
* **C73** In-plane second variations are exact only for unit parametric tangents.
* **C76** `gsFeSolution::extract` is taken to do the same as the mapped loop; `+=` of matrices of
  different size is `ub`; the mapper's patch size for mapped bases is a parameter.
* **C78** The boundary force is minus the derivative of the energy.  The order of floating-point
  summation is not modelled.
* **C80** Calling `setBasis` after `setSpaceBasis` is excluded from the partial theorem.
* **C81, C87** `fform2nd`, `integralInterface` and `maxInterface` have their documented meaning.
* **C82** Point masses use the first registered basis (`m_basis.front()`, l.1405), not the basis of the space (`m_spaceBasis`) as point loads do; they coincide unless `setSpaceBasis` was called.
* **C84** The number of rows that the core evaluates for a variable is assumed to be `targetDim()`.
* **C86** Strong matching by `setup(…, m_continuity)` happens in the core.
* **C88** `_ifcTest` and `_isInPlane` are not called by the library at this commit (l.274 is a comment).
* **Eigen** Assignments with mismatched column numbers are treated as undefined in release builds where
  Eigen's own checks are off.

## Findings

One entry per `_violated` theorem: what the theorem shows, then the lines of `/repo/src` responsible.
The witnesses are in the statements (or in the term given to `refine`/`exact` at the start of the proof).
For every property with a `_violated` theorem the largest part that was found to hold is proved in
theorems ending in `_partial`.

### C03

* `C03_roundtrip_violated` (`Props/Ids.lean`) — **C03** is violated by the code: the factory can
  build a spectral neo-Hookean material (id 31), but it cannot be written (a null node is
  returned), and wrapped for tension-field analysis the writer dereferences that null node.
  Code: getMaterialMatrix.h:116-263 (factory), gsMaterialMatrixXml.hpp:164-184 (`put` has no case
  for id 31 and returns a null node).

### C04

* `C04_pointer_setter_violated` (`Props/Material.lean`) — **C04** is violated by the pointer
  overload of the indexed setter: on an empty parameter list, `setParameter(0, ptr)` is an
  out-of-bounds write, although the overload taking a reference is fine.
  Code: gsMaterialMatrixBase.h:700-703 (`m_pars[i] = par` without resize; compare l.722-727).

### C05

* `C05_hasUndeformed_violated` (`Props/Material.lean`) — **C05** is violated by `hasUndeformed`:
  it is false after registering an undeformed geometry, and true after registering only a deformed
  one.
  Code: gsMaterialMatrixBase.h:796-797 (`hasUndeformed` tests `m_defpatches`).

### C06

* `C06_wrapper_violated` (`Props/Material.lean`) — **C06** is violated: wrapping a material that
  has a reference geometry but no deformed geometry gives a wrapper without reference geometry.
  Code: gsMaterialMatrixTFT.h:96-109 (constructor asks `hasUndeformed`),
  gsMaterialMatrixBase.h:796-797.

### C07

* `C07_set_out_of_range_violated` (`Props/Container.lean`) — **C07** is violated as regards error
  reporting: reading a slot that does not exist throws, but `set` on a slot that does not exist is
  undefined behaviour.
  Code: gsMaterialMatrixContainer.hpp:57-73 (`m_container[i] = …`) against `at()` in the readers.

### C08

* `C08_out_of_range_violated` (`Props/Container.lean`) — **C08** is violated for files with an
  index out of range: no error is reported, the read is undefined behaviour. Three witnesses: a
  patch index, a group index, and a material index equal to the declared size.
  Code: gsMaterialMatrixContainer.hpp:113-140.

### C09

* `C09_transform_violated` (`Props/Layout.lean`) — **C09** is violated for the basis
  transformations and the tension-field angle and factor: as soon as there are two heights, the
  evaluation writes out of bounds, for every number of points and all values.
  Code: gsMaterialMatrixBaseDim.hpp:70, 92, 116, 139 (`result(9, u.cols())`) with l.79, 101, 125,
  148; gsMaterialMatrixTFT.hpp:306, 338 with l.320, 352.

### C10

* `C100_difference_violated` (`Props/DWREigen.lean`) — **C100** On a curved surface the weight `zH
  - zL` is not a difference: for equal duals the estimate should vanish and is 2.
  Code: gsThinShellAssemblerDWR.hpp:2484-2487, 2506-2509.
* `C100_first_point_violated` (`Props/DWREigen.lean`) — **C100** `deriv2` of a field reads the
  first quadrature point of the element: on a flat plate with a moment, the norm depends on second
  derivatives at another point.
  Code: gsThinShellUtils.h:1503; gsThinShellAssemblerDWR.hpp:2512-2519, 3622-3623.
* `C100_second_variation_violated` (`Props/DWREigen.lean`) — **C100** The second variation is
  multiplied twice with the second derivatives of the surface: the geometric stiffness of the
  moments is 0 instead of 1.
  Code: gsThinShellAssemblerDWR.hpp:2514, 2520, 3624.
* `C100_sign_violated` (`Props/DWREigen.lean`) — **C100** The sign of the variation of the normal
  is wrong: on a curved surface a field without bending strain has the norm 4 instead of 0.
  Code: gsThinShellAssemblerDWR.hpp:2483, 2505, 3602-3616.
* `C101_copy_violated` (`Props/DWRObject.lean`) — **C101** A copy shares the assemblers with its
  original; destroying both is a double delete.
  Code: gsThinShellAssemblerDWR.h:62-66 (no copy constructor, no assignment).
* `C101_empty_violated` (`Props/DWRObject.lean`) — **C101** Destroying an estimator built by the
  empty constructor deletes uninitialised pointers.
  Code: gsThinShellAssemblerDWR.h:62-69.
* `C102_bcs_violated` (`Props/DWRObject.lean`) — **C102** After `updateBCs` with other conditions
  the estimator, which uses its own conditions for the tractions and for the dual problem, keeps
  the old ones.
  Code: gsThinShellAssemblerDWR.h:112.
* `C102_bounds_violated` (`Props/DWRObject.lean`) — **C102** After `updateBCs` with more
  conditions the dual vector is written outside its bounds.
  Code: gsThinShellAssemblerDWR.h:112; gsThinShellAssemblerDWR.hpp:221, 678, 1143.
* `C102_continuity_violated` (`Props/DWRObject.lean`) — **C102** With the default options the two
  sides of an interface have two numbers in the matrix, but one in the dual vector: the first
  entry is the sum, the second is 0.
  Code: gsThinShellAssemblerDWR.hpp:221, 678, 1143 (`setup(…, 0)`).
* `C102_pressure_violated` (`Props/DWRObject.lean`) — **C102** A pressure is lost by both
  assemblers when the geometry is set after it.
  Code: gsThinShellAssembler.hpp:262-265.
* `C103_dirichlet_violated` (`Props/DWRObject.lean`) — **C103** With prescribed displacements
  other than zero the duals carry them too (`constructMultiPatch` fills in the Dirichlet data):
  without any free function the estimate should be 0, but it is the residual of the difference of
  the two extensions of the data.
  Code: gsThinShellDWRHelper.h:108, 135; gsThinShellAssembler.hpp:2630-2631.
* `C103_transpose_violated` (`Props/DWRObject.lean`) — **C103** The dual is solved with the
  tangent instead of its transpose: for a non-symmetric tangent (follower pressure) the dual does
  not predict the change of the goal.
  Code: gsThinShellDWRHelper.h:106-107, 133-134.
* `C103_uninitialised_violated` (`Props/DWRObject.lean`) — **C103** Asking for the error before it
  has been computed reads an uninitialised number.
  Code: gsThinShellDWRHelper.h:139.
* `C103_zero_violated` (`Props/DWRObject.lean`) — **C103** If the estimate is zero, all normalised
  errors are not finite.
  Code: gsThinShellDWRHelper.h:145, 159, 172.
* `C104_cleared_violated` (`Props/Dirichlet.lean`) — **C104** After the mass matrix, a tangent
  matrix, a homogenised vector or `homogenizeDirichlet`, the linear system lacks the prescribed
  displacements: a spring whose other end is moved by 1 has the only solution 0, while only 1 is
  in equilibrium.
  Code: gsThinShellAssembler.hpp:1540-1555, 1631-1645 (no `_assembleDirichlet`); 1318, 1451, 1745,
  1815, 1911, 2016, 2087.
* `C105_fewer_violated` (`Props/Dirichlet.lean`) — **C105** A direct change to a continuity with
  fewer functions: the first tangent matrix has rows without any function, so it is singular.
  Code: gsThinShellAssembler.hpp:1724-1745, 1804-1815, 1876-1911.
* `C105_mass_violated` (`Props/Dirichlet.lean`) — **C105** After a direct change the mass matrix
  is still numbered by the old continuity, so it does not fit the stiffness matrix assembled next.
  Code: gsThinShellAssembler.hpp:1445-1451 (no `_getOptions`).
* `C105_more_violated` (`Props/Dirichlet.lean`) — **C105** A direct change to a continuity with
  more functions: the tangent matrix and the vector are written outside their bounds.
  Code: gsThinShellAssembler.hpp:1724-1745, 1804-1815, 1876-1911, 2001-2017, 2078-2088.
* `C107_moduli_violated` (`Props/Balance.lean`) — **C107** is violated: for every material all
  moduli are those of the previous state; with moduli that change with the deformation the matrix
  is not the intended one.
  Code: gsThinShellAssembler.hpp:1876-1905 (evaluators share the materials, see C10).
* `C108_lumped_violated` (`Props/Balance.lean`) — **C108** is violated by the lumped mass matrix:
  it is zero for every shell, so it loses the whole mass.
  Code: gsThinShellAssembler.hpp:1467-1470.
* `C109_pressure_violated` (`Props/Balance.lean`) — **C109** is violated by the pressure on a
  shell that changes its area: the load keeps the area of the reference surface. A unit square
  stretched to twice its size in both directions gets a quarter of the pressure force.
  Code: gsThinShellAssembler.hpp:456-458 (`meas(m_ori)`).
* `C10_aliasing_violated` (`Props/Material.lean`) — **C10** is violated: of two evaluators built
  on one material for different geometries the first one evaluates on the geometry of the second.
  Code: gsMaterialMatrixIntegrate.hpp:128-157 (constructors write the geometry into the shared
  material), gsMaterialMatrixBaseDim.hpp:388-420 (evaluation reads it back).
* `C10_mip_violated` (`Props/Material.lean`) — **C10** is violated by the mixed-integration-point
  stiffness: all its evaluators, including the six asked to use the current geometry, use the
  previous one.
  Code: gsThinShellAssembler.hpp:1876-1905 (six evaluators for `deformed`, then six for `previous`
  on the same materials).

### C11

* `C110_field_violated` (`Props/Principal.lean`) — C110 (violated): a stress that is taut in the
  metric of its point is classified as wrinkled with the metric of another point.
  Code: gsMaterialMatrixBaseDim.hpp:297-298 and the loops above.
* `C110_pstrain_violated` (`Props/Principal.lean`) — C110 (violated): the same for the principal
  strains.
  Code: gsMaterialMatrixBaseDim.hpp:251-265 (no `_getMetric`).
* `C110_pstress_violated` (`Props/Principal.lean`) — C110 (violated): two points with the same
  stress components, the second with tangents twice as long: the principal stresses at the first
  point are 1 and 1, the values returned for it are near 4.
  Code: gsMaterialMatrixLinear.hpp:370-388, 436-454; gsMaterialMatrixNonlinear.hpp:624-642,
  684-702 (no `_getMetric`).
* `C111_cauchy_violated` (`Props/Principal.lean`) — C111 (violated): under a stretch by two,
  Cauchy components that describe the principal stresses 4 and 4 give values below 2.
  Code: gsMaterialMatrixBaseDim.hpp:1398 (`m_gcov_ori`), called at gsMaterialMatrixLinear.hpp:451,
  gsMaterialMatrixNonlinear.hpp:699.
* `C111_directions_violated` (`Props/Principal.lean`) — C111 (violated): a uniaxial stress and a
  correct decomposition for which the normal of the surface is returned as first principal
  direction.
  Code: gsMaterialMatrixBaseDim.hpp:1407-1421.
* `C111_thickness_violated` (`Props/Principal.lean`) — C111 (violated): the third principal strain
  is zero for every deformation, which is the strain of the thickness stretch only if the area is
  preserved.
  Code: gsMaterialMatrixBaseDim.hpp:261, 1458.
* `C112_cauchy_violated` (`Props/Principal.lean`) — C112 (violated): a slack state with the
  default multiplier 0: the returned Cauchy stress vanishes, the returned principal Cauchy
  stresses are -2 and -1.
  Code: gsMaterialMatrixTFT.h:171-172.
* `C112_elastic_violated` (`Props/TFTSection.lean`) — **C112** is violated: for the wrapped linear
  material the returned stress is that of the middle surface and the returned strain that of the
  height asked for; in a taut state the stress is not the matrix times the strain (square
  stretched by 2 and bent to a cylinder, height 1).
  Code: gsMaterialMatrixTFT.hpp:116-152 (full strain), 162 (`VectorN`).
* `C112_wrinkled_violated` (`Props/Principal.lean`) — C112 (violated): a wrinkled state whose
  returned stress and strain are free of compression while the returned principal stresses and
  strains contain the value -1.
  Code: gsMaterialMatrixTFT.hpp:71-74, 99-102.
* `C113_directions_violated` (`Props/Outputs.lean`) — **C113** is violated: the principal stress
  directions of a nonlinear material have two rows where nine are declared.
  Code: gsMaterialMatrixNonlinear.hpp:650, 670.
* `C113_heights_violated` (`Props/Outputs.lean`) — **C113** is violated: at two or more heights
  the matrices of change of basis are written out of bounds, for linear and nonlinear materials.
  Code: gsMaterialMatrixBaseDim.hpp:70, 92, 116, 139.
* `C113_laminate_heights_violated` (`Props/Outputs.lean`) — **C113** is violated: at two or more
  heights the force and moment vectors and the stiffness of a laminate have one column per point
  only.
  Code: gsMaterialMatrixComposite.hpp:200, 295.
* `C113_laminate_violated` (`Props/Outputs.lean`) — **C113** is violated: every output of a
  laminate that is computed from the metric alone follows the unset thickness pointer of the base
  class; so does the thickness, and the density without densities, at any number of points and
  heights.
  Code: gsMaterialMatrixBaseDim.hpp:401, gsMaterialMatrixComposite.hpp:157, 187.
* `C113_principal_strain_violated` (`Props/Outputs.lean`) — **C113** is violated: the principal
  strains have three rows where two are declared, for linear and nonlinear materials, wrapped or
  not, for all points and heights.
  Code: gsMaterialMatrixBaseDim.hpp:247, gsMaterialMatrixEval.h:139-222.
* `C113_tft_heights_violated` (`Props/Outputs.lean`) — **C113** is violated: … and so are the
  wrinkling angle and strain of the tension-field material.
  Code: gsMaterialMatrixTFT.hpp:306, 338.
* `C113_tft_parameters_violated` (`Props/Outputs.lean`) — **C113** is violated: the wrapped
  material reports no parameters whatever the wrapped one has.
  Code: gsMaterialMatrixTFT.h:195-196.
* `C113_tft_transform_violated` (`Props/Outputs.lean`) — **C113** is violated: the transformations
  from the principal axes of a fresh wrapped material read point data that were never computed.
  Code: gsMaterialMatrixBaseDim.hpp:78, 100, gsMaterialMatrixTFT.h:83-103.
* `C114_not_restored_violated` (`Props/Explicit.lean`) — **C114** is violated: a query of the
  explicit field that throws leaves the wrapped material with the geometry of the tension field,
  for every state …
  Code: gsMaterialMatrixTFT.hpp:783-786.
* `C114_stress_violated` (`Props/Explicit.lean`) — **C114** is violated: … after which the stress
  is evaluated on that geometry although another one is set.
  Code: gsMaterialMatrixTFT.hpp:783-786.
* `C114_unregistered_violated` (`Props/Explicit.lean`) — **C114** is violated: with the option on
  and no geometry registered by `updateDeformed` the field is computed from whatever the wrapped
  material evaluated last: the same object in the same configuration gives different answers,
  refuses, or reads out of bounds, depending on earlier evaluations.
  Code: gsMaterialMatrixTFT.hpp:784, gsMaterialMatrixBaseDim.hpp:392-393.
* `C115_compressible_violated` (`Props/Deform.lean`) — **C115** is violated: for the extended
  neo-Hookean material with Poisson's ratio 0 the plane stress state has thickness entry 1 for
  every deformation; the two outputs disagree whenever the area changes.
  Code: gsMaterialMatrixBaseDim.hpp:192, gsMaterialMatrixNonlinear.hpp:577-605.
* `C115_linear_detF_violated` (`Props/Deform.lean`) — **C115** is violated: the volume ratio of
  the reported deformation is one, the one used for the Cauchy stress of the linear material is
  the area ratio; they differ for every change of area.
  Code: gsMaterialMatrixBaseDim.hpp:192, gsMaterialMatrixLinear.hpp:506, 525.
* `C115_linear_violated` (`Props/Deform.lean`) — **C115** is violated: without lateral contraction
  (Poisson's ratio 0) the linear material keeps its thickness, but every change of area is
  reported with a change of thickness, and the reported state is not one of plane stress.
  Code: gsMaterialMatrixBaseDim.hpp:192 (not overridden).
* `C116_curvature_violated` (`Props/TFTSection.lean`) — **C116** is violated: the membrane force
  of the wrapped linear material depends on the curvature. Both squares have the same membrane
  strain (stretch 2) and thickness 1; the flat one is taut at both heights, the curved one is
  slack at the upper side, where its stress is dropped: with the default multiplier 0 the force is
  halved.
  Code: gsMaterialMatrixTFT.hpp:162-180, 776-790; gsMaterialMatrixBaseDim.hpp:297.
* `C116_moment_violated` (`Props/TFTSection.lean`) — **C116** is violated: the bending moment of
  the taut wrapped linear material is zero, for every thickness, deformation and material; the one
  of the material itself is not, for instance for a square stretched by 2 and bent to a cylinder
  (Poisson's ratio 0), which is taut at both heights; and the bending stiffness `D` is not zero
  either.
  Code: gsMaterialMatrixTFT.hpp:55-58, 162; gsMaterialMatrixTFT.h:113-121.
* `C116_nonlinear_violated` (`Props/TFTSection.lean`) — **C116** is violated: a neo-Hookean square
  stretched by 2 and bent to a cylinder is in tension at every height; the membrane force of the
  wrapper differs from the integral of the stress, since the stress is not affine in the height.
  Code: gsMaterialMatrixTFT.h:119-121, gsMaterialMatrixIntegrate.hpp:333-364.
* `C116_pointwise_violated` (`Props/TFTSection.lean`) — **C116** is violated: the pointwise stress
  outputs of the taut wrapped linear material are the membrane stress for every kind asked for and
  every height; the flexural and the total stress of the material itself are other stresses.
  Code: gsMaterialMatrixTFT.hpp:155, 162.
* `C117_oblique_violated` (`Props/Penalty.lean`) — **C117** is violated: for oblique tangents the
  matrix is not the Cartesian stiffness, and the penalty factor exceeds that of the true stiffness
  by any factor, although the material (linear, `E = 1`, `ν = 0`, unit thickness), the surface
  (the x-y plane), the option and the element size are the same.
  Code: gsThinShellAssembler.hpp:588-596 (`con2cartI * … * cart2cov`), 895-904;
  gsThinShellUtils.h:1799-1809, 1946-1956.
* `C118_flatdot_violated` (`Props/ExprMat.lean`) — **C118** is violated for two different spaces:
  the entries are those of the transposed matrix, and with different numbers of functions blocks
  outside the arguments are read.
  Code: gsThinShellUtils.h:1659 (`eB.middleCols(i*Bc,Bc) * eA.middleCols(j*Ac,Ac)`).
* `C118_var2_violated` (`Props/ExprMat.lean`) — **C118** is violated for two different spaces: the
  result has the size of the first space only. If the second has more functions the loops write
  outside; if it has fewer, entries stay indeterminate.
  Code: gsThinShellUtils.h:282, 411, 1038 (`res.resize(_u.cardinality(), _u.cardinality())`).
* `C119_membrane_violated` (`Props/SectionForces.lean`) — C119: violated for membrane forces. In
  pure bending the membrane force vanishes, while the integrated principal stresses are opposite
  and differ from zero as soon as a point of the rule with positive weight lies off the middle
  surface and the two principal values differ.
  Code: src/gsMaterialMatrixIntegrate.hpp:229-243.
* `C119_moment_violated` (`Props/SectionForces.lean`) — C119: violated for moments. In pure
  bending (stress proportional to the height) every symmetric rule that is exact for quadratic
  functions returns the mean of the principal moments for both values, whatever the tensor, the
  metric and the thickness. The principal moments are `x0 t³/12 ≤ y0 t³/12`.
  Code: src/gsMaterialMatrixIntegrate.hpp:229-243.
* `C11_eval_ctor_violated` (`Props/Material.lean`) — **C11** is violated: the pointwise evaluator
  ignores the undeformed geometry and registers the deformed one as reference; any quantity which
  is a difference of a metric quantity of the deformed and the reference geometry is then zero.
  Code: gsMaterialMatrixEval.hpp:149-172.

### C12

* `C120_shear_violated` (`Props/DMatrix.lean`) — C120: violated with shear. For a law that meets
  all other hypotheses the derivative read is half of the derivative of the tangent at the current
  deformation.
  Code: src/gsMaterialMatrixNonlinear.hpp:54-65, 386-391; src/gsMaterialMatrixTFT.hpp:440-444.
* `C121_numerical_violated` (`Props/DPoints.lean`) — C121: violated with the numerical derivative.
  Whatever the points and the material, as soon as there are two points with heights, the second
  turn reads a column that does not exist.
  Code: src/gsMaterialMatrixNonlinear.hpp l.344-392.
* `C122_millimetres_violated` (`Props/Shortcut.lean`) — C122: violated, with numbers: a square
  plate of 1000 mm parametrised on the unit square and stretched in both directions by half a
  millionth. For every material the stress returned is zero, while the neo-Hookean formula gives a
  positive one, and so does the evaluation of the same plate given in metres.
  Code: src/gsMaterialMatrixNonlinear.hpp l.801, 851, 897, 929.
* `C122_units_violated` (`Props/Shortcut.lean`) — C122: violated. Whatever the material, the
  undeformed and the deformed metric: in a sufficiently small unit of length (lengths multiplied
  by `L`) the returned stress is zero, and it remains so in all smaller units. The reason is that
  the compared matrices contain the thickness entry 1, to which the tolerance is relative.
  Code: src/gsMaterialMatrixNonlinear.hpp l.801, 851, 897, 929.
* `C123_energy_violated` (`Props/ShellTangent.lean`) — **C123 violated** At the bent plate the
  internal force is not minus the derivative of the stored energy in the direction of further
  bending.
  Code: src/gsThinShellAssembler.hpp l.2020-2042 with src/gsMaterialMatrixBaseDim.hpp l.1099.
* `C123_tangent_violated` (`Props/ShellTangent.lean`) — **C123 violated** A plate bent to unit
  curvature, with the two-point rule over a thickness 1 and any neo-Hookean material with non-zero
  shear modulus: the residual is differentiable in the direction of further bending, and its
  derivative is not minus the entry of the tangent.
  Code: src/gsThinShellAssembler.hpp l.1748-1776 with src/gsMaterialMatrixBaseDim.hpp l.1099.
* `C124_shortcut_violated` (`Props/Reparam.lean`) — **C124 violated** With the shortcut the
  returned stress depends on the parametrisation: a plate with a millionth of biaxial squared
  stretch over the unit square has a non-zero neo-Hookean stress; over a parameter domain a
  thousand times smaller the returned stress is zero, although the formula gives a positive value.
  Code: src/gsMaterialMatrixNonlinear.hpp l.897.
* `C125_foundation_violated` (`Props/Planar.lean`) — **C125 violated** A foundation that resists
  motions in the plane is ignored by the planar code.
  Code: src/gsThinShellAssembler.hpp:505-510, 556-561.
* `C125_linear_violated` (`Props/Planar.lean`) — **C125 violated** Stretched parametrisation,
  uniaxial stretch: the planar stress of the linear material is 256 times the stress of the sheet.
  Code: src/gsMaterialMatrixBaseDim.hpp:1286.
* `C126_auxetic_violated` (`Props/PosDef.lean`) — **C126** Violation: with a negative Poisson's
  ratio the extended material loses definiteness in a moderate stretch.
  Code: src/gsMaterialMatrixNonlinear.hpp l.1540-1551.
* `C126_balloon_violated` (`Props/PosDef.lean`) — **C126** With the ratio `c1 / c2 = 7` of the
  examples a stretch of `√2` in all directions is enough.
  Code: src/gsMaterialMatrixNonlinear.hpp l.1322-1343.
* `C126_compressible_violated` (`Props/PosDef.lean`) — **C126** Violation: a compressible
  neo-Hookean material with positive Poisson's ratio, stretched with zero thickness stress, has a
  tangent that is not positive definite (or a thickness stiffness that is not positive).
  Code: src/gsMaterialMatrixNonlinear.hpp l.1481-1501.
* `C126_mooneyRivlin_violated` (`Props/PosDef.lean`) — **C126** Violation: every Mooney–Rivlin
  material has a deformation, an equal stretch in all in-plane directions, in which the tangent is
  not positive definite.
  Code: src/gsMaterialMatrixNonlinear.hpp l.1322-1343.
* `C127_compressed_violated` (`Props/PlaneStress.lean`) — **C127** Violation: although the stretch
  exists, the iteration for the extended material does not find it in any state with `J² (4μ + λ)
  ≤ 2μ` (`J²` the squared area ratio): it never returns a positive value there.
  Code: src/gsMaterialMatrixNonlinear.hpp l.1898-1931.
* `C128_projection_violated` (`Props/Project.lean`) — **C128** is violated: whatever the function,
  a matrix handed in is left as it is, the projected vector is empty, and the patches of a
  projection cannot be built as soon as there is a free function.
  Code: src/gsThinShellAssembler.hpp l.2831-2893.
* `C129_patch_violated` (`Props/Project.lean`) — **C129** is violated: the patch of a point is not
  an argument. With principal stresses 1 and 2 on the first patch and 3 and 4 on the second, no
  call returns a value near 4.
  Code: src/gsThinShellAssembler.hpp l.2734-2795.
* `C129_sizes_violated` (`Props/Project.lean`) — **C129** is violated for laminates: stretches
  follow a null pointer, stresses throw.
  Code: src/gsThinShellAssembler.hpp l.2734-2795, src/gsMaterialMatrixBaseDim.hpp l.387-413.
* `C12_single_material_violated` (`Props/Material.lean`) — **C12** is violated: the constructor
  from one material and both geometries runs into undefined behaviour for every geometry with two
  or more patches.
  Code: gsMaterialMatrixIntegrate.hpp:81-95.

### C13

* `C130_OG_violated` (`Props/Benchmark.lean`) — **C130** is violated by the spectral
  implementation: compressed to the stretch `(√5 - 1) / 2`, an incompressible square has the trace
  of the undeformed one, the shortcut of `_evalStretch` is taken, and every Ogden material reports
  a lateral stress at the lateral stretch of the closed-form solution, whatever the eigenvalue
  solver.
  Code: src/gsMaterialMatrixBaseDim.hpp:1350-1356.
* `C131_laminate_violated` (`Props/System.lean`) — **C131** is violated by laminates in skew
  bases: the stiffness matrix of one isotropic layer is not symmetric.
  Code: src/gsMaterialMatrixComposite.hpp:271-277.
* `C131_membrane_violated` (`Props/System.lean`) — **C131** is violated by the assembler without
  bending on flat shells: with one free normal component the linear system is singular, for all
  moduli, boundary conditions and quadrature rules.
  Code: src/gsThinShellAssembler.hpp:1650-1670.
* `C131_onepoint_violated` (`Props/System.lean`) — **C131** is violated by the one-point rule
  through the thickness (`NumGauss = 1`): bending costs no energy, for every material, thickness
  and curvature.
  Code: src/gsMaterialMatrixIntegrate.hpp:300-323.
* `C133_layers_violated` (`Props/Balloon.lean`) — **C133** With points off the mid-surface the
  pressure of the unit test does not balance the sphere: two Gauss points, sphere of radius 1,
  stretch 2.
  Code: unittests/gsThinShellAssembler_test.cpp l.417, src/gsMaterialMatrixIntegrate.hpp
  l.300-323.
* `C134_angle_violated` (`Props/Plate.lean`) — **C134** Layers at an angle couple bending and
  twisting: the first Navier mode is then no mode of the plate, for any frequency.
  Code: gsMaterialMatrixComposite.hpp l.331-350.
* `C135_onePoint_violated` (`Props/Buckling.lean`) — **C135** With one point through the thickness
  the tangent of a hyperelastic plate has no bending stiffness: already the undeformed plate
  buckles, though its exact condition is met by no mode.
  Code: gsMaterialMatrixIntegrate.hpp l.311-323.
* `C138_lost_violated` (`Props/Threads.lean`) — **C138** (violated) Even if every access were
  atomic: two threads that compute a tension field can, both without any error, leave the geometry
  of `updateDeformed` registered as the deformed one.
  Code: gsMaterialMatrixTFT.hpp l.783-786.
* `C138_race_violated` (`Props/Threads.lean`) — **C138** (violated) With the option on, a thread
  that computes a tension field races with every other thread that evaluates the material:
  undefined behaviour.
  Code: gsMaterialMatrixTFT.hpp l.783-786.
* `C138_stress_violated` (`Props/Threads.lean`) — **C138** (violated) Likewise a stress that
  another thread evaluates meanwhile is that of the geometry of `updateDeformed`.
  Code: gsMaterialMatrixTFT.hpp l.784-785.
* `C139_absolute_violated` (`Props/Solve.lean`) — **C139** (violated) The tolerance is absolute: a
  small structure (a stiffening spring with displacements below the tolerance) is accepted after
  one iteration, out of balance by more than 200 times the load.
  Code: nonlinear_shell.cpp l.167.
* `C139_diverges_violated` (`Props/Solve.lean`) — **C139** (violated) So a solution that was not
  found is returned like one that was: a spring with residual `1 - x - 3x² + 2x³` (an equilibrium
  at `1/2`, and positive stiffness at all iterates) ends after 100 iterations at `x = 1`, out of
  balance by as much as the load.
  Code: nonlinear_shell.cpp l.153-171.
* `C139_warning_violated` (`Props/Solve.lean`) — **C139** (violated) The warning `Maximum
  iterations reached!` is never printed (its condition is `it+1 == it`), and no error is raised
  either.
  Code: nonlinear_shell.cpp l.169, example_shell3D.cpp l.582, example_shell2D.cpp l.480,
  example_parametric_panel.cpp l.413.
* `C13_stored_basis_violated` (`Props/Geometry.lean`) — **C13** is violated by the member
  `m_acon_def`/`m_acon_ori` left behind for three-dimensional surfaces: it is the covariant basis,
  so it is not dual as soon as a tangent is not a unit vector.
  Code: gsMaterialMatrixBaseDim.hpp:1128, 1259.

### C14

* `C140_modal_high_violated` (`Props/Examples.lean`) — **C140** Modal example: for the indices 69
  to 80 the reference is the value of a higher mode, because `m` and `n` only run to 9.
  Code: examples/example_shell3D_DWR_modal.cpp l.232-236.
* `C140_modal_ub_violated` (`Props/Examples.lean`) — **C140** Modal example: any other index is
  read outside of the vector.
  Code: examples/example_shell3D_DWR_modal.cpp l.302.
* `C140_numeric_ub_violated` (`Props/Examples.lean`) — **C140** Buckling example, both directions:
  from the index 10 on the numerical reference is read outside of its vector, although the
  analytical table has 81 entries.
  Code: examples/example_shell3D_DWR_buckling.cpp l.225.
* `C140_numeric_violated` (`Props/Examples.lean`) — **C140** Buckling example, both directions:
  for the default load they are not, the relative error is more than `3e-5`.
  Code: examples/example_shell3D_DWR_buckling.cpp l.222-225.
* `C140_reciprocal_violated` (`Props/Examples.lean`) — **C140** Buckling example, both directions,
  without Spectra: the other solver is given the matrices in the other order and returns
  reciprocals. With the default load they are below `1e-4` for all modes, all references are above
  `1e4`.
  Code: examples/example_shell3D_DWR_buckling.cpp l.408-411, 474-477.
* `C140_translation_violated` (`Props/Examples.lean`) — **C140** Buckling example, one direction:
  the displacement parallel to an edge meets the supports and has no stiffness, so that the matrix
  of the linear problem is singular: every multiple of it can be added to a solution.
  Code: examples/example_shell3D_DWR_buckling.cpp l.239-248.
* `C140_uniaxial_violated` (`Props/Examples.lean`) — **C140** Buckling example, one direction: the
  eigenvalues of all modes of the table are negative, as the plate is compressed, while all
  references are positive.
  Code: examples/example_shell3D_DWR_buckling.cpp l.239-271.
* `C141_accept_violated` (`Props/Relaxed.lean`) — C141 (violated, acceptance test): a point which
  the mixed criterion calls wrinkled and an angle which is an exact zero and is accepted, for
  which the returned stress is not that of the state: compression remains.
  Code: gsMaterialMatrixTFT.hpp l.594-608.
* `C141_strain_violated` (`Props/Relaxed.lean`) — C141 (violated, strain criterion): an isotropic
  membrane under tension in all directions is called wrinkled, and whatever the angle its stress
  is not that of the state.
  Code: gsMaterialMatrixBaseDim.hpp l.344-355.
* `C141_stress_violated` (`Props/Relaxed.lean`) — C141 (violated, stress criterion): an isotropic
  membrane which bears tension along its wrinkles is called slack and given no stress.
  Code: gsMaterialMatrixBaseDim.hpp l.357-368.
* `C142_skew_violated` (`Props/TFTSearch.lean`) — C142 (violated): a point of the linear isotropic
  material, in skew coordinates, which the mixed criterion calls wrinkled. The two zeros lie in
  one of the 50 intervals, no change of sign is seen, the search returns the angle 0, and the
  returned stress is compressive: it is not that of the state. This holds for every previous
  angle, machine epsilon and Newton method.
  Code: gsMaterialMatrixTFT.hpp l.497-574.
* `C143_turned_violated` (`Props/TFTInterval.lean`) — C143 (violated): an isotropic membrane in
  orthonormal coordinates with principal stresses of opposite sign and turned axes. The interval
  is not empty, but contains no zero of the searched function at all: Brent's method and the
  bisection both fail, and only Newton's method, which may leave the interval, remains.
  Code: gsMaterialMatrixTFT.hpp l.657.
* `C144_planar_violated` (`Props/PatchTest.lean`) — The planar code with the linear material fails
  the patch test: the unit strip parametrised by `x = ξ + ξ²/2`, stretched to twice its length,
  has a residual at a test function that vanishes on the boundary.
  Code: gsMaterialMatrixBaseDim.hpp l.1286.
* `C144_shortcut_violated` (`Props/PatchTest.lean`) — With the zero-stress shortcut the
  neo-Hookean shell fails the patch test: on a strip whose parametrisation gets faster along `x`,
  stretched by 5/4, the stress is dropped where the parametrisation is fast.
  Code: gsMaterialMatrixNonlinear.hpp l.801, 900.
* `C146_corner_violated` (`Props/Reaction.lean`) — With loads on an adjacent side the boundary
  force is not the force on the side: in a trapezoid stretched along `x`, discretised by four
  functions, the function of the upper right corner takes a part of the traction on the upper side
  along; the boundary force is three quarters of the force on the right side.
  Code: gsThinShellAssembler.hpp l.2372-2375.
* `C147_indefinite_violated` (`Props/PenaltySystem.lean`) — **C147** is violated by shells that
  are held by weak Dirichlet conditions: a strain-free displacement that meets the other
  conditions and moves a point with a weak Dirichlet condition has negative energy, for every
  positive value of the option.
  Code: gsThinShellAssembler.hpp l.603.
* `C147_singular_violated` (`Props/PenaltySystem.lean`) — **C147** is violated by weak Dirichlet
  conditions: every system that is solvable without them and has one at a point where a free basis
  function is not zero becomes singular for some positive value of the option, and indefinite for
  every larger one.
  Code: gsThinShellAssembler.hpp l.603.
* `C148_curved_violated` (`Props/SameSheet.lean`) — On a cylinder the incompressible neo-Hookean
  sheet is stiffer than the isotropic sheet, for every curvature, thickness and rule with nodes
  inside the thickness: the non-linear class evaluates the metric at every height, the linear one
  only at the middle.
  Code: gsMaterialMatrixNonlinear.hpp l.1035-1075.
* `C148_laminate_skew_violated` (`Props/SameSheet.lean`) — Wherever the tangents are skew, the
  same laminate has twice the right modulus between the second normal strain and the shear, in
  membrane and in bending: it is never the isotropic sheet.
  Code: gsMaterialMatrixComposite.hpp l.356-394.
* `C148_onepoint_violated` (`Props/SameSheet.lean`) — With a single point in the middle of the
  thickness (`NumGauss = 1`) the non-linear class has no bending stiffness, whatever the material;
  the isotropic sheet has one.
  Code: gsMaterialMatrixIntegrate.hpp l.300-323.
* `C149_laminate_violated` (`Props/ShellSystem.lean`) — **C149** is violated by laminates of two
  different plies: the tangent couples the stretch to the curvature, the residual does not.
  Code: gsMaterialMatrixComposite.hpp l.287-326.

### C15

* `C151_derivative_violated` (`Props/AtTensor.lean`) — **C151** is violated at the undeformed
  state of every shell of neo-Hookean material: the stress returned near it is zero, so that its
  derivative is zero, and the matrix is not.
  Code: gsMaterialMatrixNonlinear.hpp l.929-930.
* `C151_linear_violated` (`Props/AtTensor.lean`) — **C151** is violated for the linear material,
  although nothing is deformed: on a cylinder the stress of the membrane strain at the tensor of a
  height `z` and the stress of the bending strain are not those of the cylinder, which are zero.
  Code: gsMaterialMatrixLinear.hpp l.346-353.
* `C151_public_violated` (`Props/AtTensor.lean`) — **C151** is violated: the public `S` is
  undefined before the first evaluation, and the public `C` is undefined always, since it writes
  the third row of a matrix with two. With three rows it would be the matrix of the point
  evaluated last.
  Code: gsMaterialMatrixLinear.hpp l.565-591.
* `C151_reject_violated` (`Props/AtTensor.lean`) — **C151** is violated: minus the metric of a
  regular shell, which is no metric, is accepted, and the stress for it has a value.
  Code: gsMaterialMatrixBaseDim.hpp l.1015.
* `C152_conservative_violated` (`Props/LoadedShell.lean`) — **C152** is violated: the pressure
  acts on the deformed normal but on the undeformed area; such loads have no potential. For every
  pressure different from zero the tangent of this sheet is not symmetric and its residual is not
  a gradient, so equilibria are not stationary points of any energy.
  Code: gsThinShellAssembler.hpp l.435-438, 456-458.
* `C152_diverges_violated` (`Props/LoadedShell.lean`) — **C152** is violated: a shell that moves
  as a whole on a foundation of any positive total stiffness `c` under any force `f` that
  displaces it by at least the tolerance. The linear problem gives the equilibrium `f / c`. The
  programs start there and leave it, doubling the distance with every iteration: after 100
  iterations they return a displacement `2 ^ 101 - 1` times the right one, without a warning.
  Code: gsThinShellAssembler.hpp l.551-553, tutorials/nonlinear_shell.cpp l.136-171.
* `C152_sign_violated` (`Props/LoadedShell.lean`) — **C152** is violated: with a foundation the
  assembled residual is the balance of forces of a shell whose foundation has the opposite
  stiffness, at all states; where it vanishes, the forces are out of balance by twice the force of
  the foundation. The tangent is the one of the right foundation, so it is not minus the
  derivative of the residual unless the foundation does not act on the unknowns at all.
  Code: gsThinShellAssembler.hpp l.551-553.
* `C152_weak_violated` (`Props/LoadedShell.lean`) — **C152** is violated: a foundation that is
  weak against the shell is not noticed; the programs stop by themselves near a zero of the
  assembled residual, with the balance of forces violated by twice the force of the foundation
  there.
  Code: gsThinShellAssembler.hpp l.551-553.
* `C153_exact_violated` (`Props/DWRShell.lean`) — **C153** The estimate is not exact, and the
  power of the distance cannot be improved: a strip that carries its load with the stretch `u` on
  the finer basis and not at all on the coarser one; the true change of the displacement is `u`,
  the estimate is too large by more than `u²`.
  Code: gsThinShellDWRHelper.h l.130-136.
* `C154_conservative_violated` (`Props/HyperShell.lean`) — **C154** (violation) On every cylinder
  of neo-Hookean material the assembled residual is the gradient of no potential, not even close
  to the undeformed state.
  Code: gsMaterialMatrixBaseDim.hpp l.1099, 1230; gsThinShellAssembler.hpp l.1757-1776.
* `C154_linear_violated` (`Props/HyperShell.lean`) — **C154** (violation) A cylinder of
  neo-Hookean material under a small bending load: the assembled tangent at the undeformed state,
  which is the matrix of the linear problem, is not minus the derivative of the residual, and the
  solution of the nonlinear problem differs from the one of the linear problem by a fixed
  proportion, however small the load is.
  Code: gsMaterialMatrixBaseDim.hpp l.1099, 1230; gsThinShellAssembler.hpp l.1577-1600.
* `C155_tangent_violated` (`Props/JoinedShell.lean`) — **C155** is violated for the tangent:
  whatever the shell, with the hinge the assembled tangent is not symmetric and not minus the
  derivative of the residual.
  Code: src/gsThinShellAssembler.hpp l.1120-1136.
* `C156_gap_violated` (`Props/JointBalance.lean`) — **C156** (violation: gap) If the undeformed
  edges do not meet, a rigid motion of the undeformed patches causes forces, and these have a
  moment.
  Code: gsThinShellAssembler.hpp l.1183-1203.
* `C156_rotation_violated` (`Props/JointBalance.lean`) — **C156** (violation: in-plane stress
  stiffness) For the folded triangles, whose edges meet, the tangent applied to a rotation about
  the edge does not turn the coupling force.
  Code: gsThinShellAssembler.hpp l.1120-1136; gsThinShellUtils.h l.1045, 1078.
* `C157_kink_violated` (`Props/PenaltyState.lean`) — **C157** (violation: smoothness) In the
  undeformed state the factor has no derivative with respect to a stretch in one direction,
  because the largest entry changes place there.
  Code: gsThinShellAssembler.hpp l.1047.
* `C157_soft_violated` (`Props/PenaltyState.lean`) — **C157** (violation: strength) The penalty
  has no lower bound in terms of its value in the undeformed state: it becomes as weak as one
  likes when the shell is stretched.
  Code: gsThinShellAssembler.hpp l.1034, 1047.
* `C157_tangent_violated` (`Props/PenaltyState.lean`) — **C157** (violation: tangent) At an open
  edge the assembled matrix is not minus the derivative of the coupling force: a neo-Hookean
  square, stretched equally, whose edge is one unit away from its neighbour.
  Code: gsThinShellAssembler.hpp l.1065-1073.
* `C158_clamp_violated` (`Props/HeldShell.lean`) — **C158** is violated: at rest the derivative of
  the residual is that of a shell with hinges instead of clamped sides, whatever the factors. So
  the assembled tangent is minus the derivative of the residual only if the linear problem does
  not notice the clamped sides at all.
  Code: gsThinShellAssembler.hpp l.738, 788.
* `C158_flap_violated` (`Props/HeldShell.lean`) — **C158** is violated: a plate whose only
  stiffness against tilting is the clamped side. The linear problem has exactly one solution for
  every load; the nonlinear problem has no equilibrium at all near the undeformed state for small
  loads of one sign, and one on either side of it for small loads of the other sign.
  Code: gsThinShellAssembler.hpp l.788.
* `C158_sign_violated` (`Props/HeldShell.lean`) — **C158** is violated: weak Dirichlet conditions
  act as springs that push away from the prescribed place. The assembled residual is minus the
  gradient of the potential with the opposite springs at all regular states; it is minus the
  gradient of the potential with the springs exactly where they do no work.
  Code: gsThinShellAssembler.hpp l.745, 795.
* `C158_small_violated` (`Props/HeldShell.lean`) — **C158** is violated: the solution for small
  loads is that of the shell with hinges. If the problem with hinges is regular, small loads have
  exactly one equilibrium near the undeformed state; up to the square of the load it is the linear
  solution with hinges, and it differs from the linear solution with clamped sides, which the
  programs start with, by the difference of the two.
  Code: gsThinShellAssembler.hpp l.788.
* `C158_unstable_violated` (`Props/HeldShell.lean`) — **C158** is violated: stiff springs make
  every state unstable. In every state and for every displacement that moves a weak Dirichlet
  point, the second derivative of the energy in this direction is negative for all large values of
  the option.
  Code: gsThinShellAssembler.hpp l.603, 745.
* `C159_limit_violated` (`Props/JoinedSheet.lean`) — **C159** is violated: with a growing option
  `WeakDirichlet`, of either sign, the solution of the linear problem tends to the one in which
  the sides are displaced by `g / m` instead of the prescribed `g`, and the error is of the order
  of one over the option.
  Code: gsThinShellAssembler.hpp l.686-700 against l.672-683.
* `C159_linear_violated` (`Props/JoinedSheet.lean`) — **C159** is violated: with the sheet at rest
  the residual and the tangent differ from the right-hand side and the matrix of the linear
  problem. The right-hand side lacks the factor `m` of the sides, the matrix has the measure of
  the interfaces twice.
  Code: gsThinShellAssembler.hpp l.686-700, 995-1002.
* `C159_repel_violated` (`Props/JoinedSheet.lean`) — **C159** is violated: at an equilibrium with
  a positive definite tangent, if some displacement stores more energy in the springs of the
  interfaces than in the patches with their sides, there is a direction such that Newton's method,
  started from the equilibrium in this direction at any distance, however small, moves away to a
  fixed distance.
  Code: gsThinShellAssembler.hpp l.1258-1267 against l.1293-1302.
* `C159_sign_violated` (`Props/JoinedSheet.lean`) — **C159** is violated: the residual is minus
  the gradient of the potential in which the springs along interfaces and sides push instead of
  pull. It is minus the gradient of the potential of the sheet exactly in states in which the
  springs do no work.
  Code: gsThinShellAssembler.hpp l.858-866, 1293-1302.
* `C159_tangent_violated` (`Props/JoinedSheet.lean`) — **C159** is violated: minus the derivative
  of the residual is the tangent with the interfaces pushing instead of pulling, and the assembled
  tangent exactly if the springs of the interfaces store no energy in any displacement.
  Code: gsThinShellAssembler.hpp l.1258-1267 against l.1293-1302.
* `C15_planar_violated` (`Props/Geometry.lean`) — **C15** is violated: the contravariant metric
  stored for planar geometries is the covariant metric (the inner products of the tangents), hence
  not its inverse for a stretched parametrisation.
  Code: gsMaterialMatrixBaseDim.hpp:1157, 1286 (`m_Acon` read from `m_Acov_*_mat`).

### C16

* `C160_slow_violated` (`Props/ClampNewton.lean`) — **C160** is violated: the stiffer the
  clamping, the slower. The equilibrium turns the sides by as much as if they were hinges,
  whatever the factors; with factors times `c`, after `n` further steps Newton's method has turned
  them by at most `(n + 1) √W / √c`, where `W` is the work of the load on the solution with
  hinges.
  Code: src/gsThinShellAssembler.hpp l.740-757, 790-807.
* `C160_steps_violated` (`Props/ClampNewton.lean`) — **C160** is violated: the order never
  improves. Unless the solution without clamping solves the linear problem, after any number of
  steps the error of Newton's method is still at least a constant times the load, for all small
  loads: as bad an order as that of the linear solution the method starts with.
  Code: src/gsThinShellAssembler.hpp l.740-757, 790-807.
* `C161_compressed_violated` (`Props/PlaneSheet.lean`) — **C161** Violation: in every state of the
  extended neo-Hookean material with an area ratio that satisfies `J² (3μ + λ) ≤ μ` the iteration
  for the thickness ends with the error "Method did not converge", although the sheet there has a
  thickness without stress and its potential has a gradient; such a state is the strip shortened
  sufficiently.
  Code: gsMaterialMatrixNonlinear.hpp l.1911-1931.
* `C162_conservative_violated` (`Props/PlaneShell.lean`) — **C162** (violation) On every cylinder
  of each of the three materials the assembled residual is the gradient of no potential, not even
  close to the undeformed state.
  Code: gsMaterialMatrixBaseDim.hpp l.1099, 1230; gsThinShellAssembler.hpp l.1757-1776.
* `C162_linear_violated` (`Props/PlaneShell.lean`) — **C162** (violation) A cylinder of each of
  the three materials under a small bending load: the assembled tangent at the undeformed state,
  which is the matrix of the linear problem, is not minus the derivative of the residual, and the
  solution of the nonlinear problem differs from the one of the linear problem by a fixed
  proportion, however small the load is.
  Code: gsMaterialMatrixBaseDim.hpp l.1099, 1230; gsThinShellAssembler.hpp l.1577-1600.
* `C166_linear_violated` (`Props/WrinkledTangent.lean`) — **C166** For the variant of the wrapper
  for linear materials this fails: a parallelogram with wrinkles, away from kinks and with the
  wrinkles found, whose assembled matrix is not symmetric and is not minus the derivative of the
  residual.
  Code: gsMaterialMatrixTFT.hpp l.868 (minus sign), l.401.
* `C167_compression_violated` (`Props/BucklingFirst.lean`) — **C167** The sheet that is pushed
  together with the load 1/4 loses its stiffness at 32/21 times the load. With Spectra nothing is
  promised, and without Spectra the program returns -21/32.
  Code: `examples/example_shell3D_DWR_buckling.cpp` l.399-401.
* `C167_dense_violated` (`Props/BucklingProgram.lean`) — **C167** Without Spectra the program
  returns a number that is not critical. The sheet that is pulled with the load 1: the value is
  9/2, with Spectra it is 2/9, and the stiffness is lost at -2/9 times the load only.
  Code: `examples/example_shell3D_DWR_buckling.cpp` l.409-410.
* `C168_double_violated` (`Props/ModalProgram.lean`) — **C168** With double frequencies the
  printed row depends on the solver. Two nested bases with equal values: with the modes in one
  order the row is right (value 1, error 0), with the modes in another order, which the solver may
  return as well, the program divides by zero.
  Code: `examples/example_shell3D_DWR_modal.cpp` l.466-473.
* `C169_dense_violated` (`Props/BucklingTable.lean`) — **C169** Without Spectra the printed
  estimate can have the wrong sign: a membrane under the forces 1 and 2 has the value 41/25 in the
  coarse basis and 1 in the fine one; the program prints the error 16/25 instead of -16/25, and
  57/25 for the goal.
  Code: `examples/example_shell3D_DWR_buckling.cpp` l.412-413, 433-449.

### C17

* `C170_loads_violated` (`Props/LinearTable.lean`) — **C170** With a point load, the program
  prints an estimate 0 and an estimated goal 0 although the goal of the solution in the finer
  basis is 1; passing the loads to the estimator gives both exactly.
  Code: `examples/example_shell3D_DWR.cpp` l.462, 467.
* `C171_density_violated` (`Props/ParamText.lean`) — **C171** A density below `5e-7`, as of steel
  in tonnes and millimetres: the mass matrix of the modal example is zero, so it has no eigenvalue
  with a mode that has stiffness, while the reference is a positive number.
  Code: `examples/example_shell3D_DWR_modal.cpp` l.307-310.
* `C171_thin_violated` (`Props/ParamText.lean`) — **C171** A thickness below `5e-7`: the program
  computes with the thickness 0, and no clamped displacement is in equilibrium with the load.
  Code: `examples/example_shell3D_DWR.cpp` l.179, 277-279.
* `C172_untied_violated` (`Props/OgdenReference.lean`) — **C172** Nothing ties the Ogden
  parameters to `E` and `ν`: for all of the latter there are Ogden parameters with another
  stiffness at small strains.
  Code: `src/gsMaterialMatrixNonlinear.hpp` l.2437-2454, 2589-2613.
* `C172_young_violated` (`Props/OgdenReference.lean`) — **C172** The incompressible neo-Hookean
  material with the parameters `E = 1` and `ν = 0.3` of test case 3 of the two-dimensional example
  has Young's modulus `15/13`.
  Code: `src/gsMaterialMatrixNonlinear.hpp` l.1315, `examples/example_shell2D.cpp` l.32, 124-129.
* `C17_singular_reference_violated` (`Props/Geometry.lean`) — **C17** is violated for a singular
  reference metric with non-singular deformed metric: the code divides by zero instead of
  reporting.
  Code: gsMaterialMatrixBaseDim.hpp:1026-1037.

### C21

* `C21_planar_violated` (`Props/Linear.lean`) — **C21** is violated in the planar case, where the
  stored contravariant metric is the covariant one (see C15): doubling the first parameter changes
  the energy of the same uniaxial stretch. `J'` is the doubled Jacobian, the strain scales
  covariantly.
  Code: gsMaterialMatrixBaseDim.hpp:1157, 1286 with gsMaterialMatrixLinear.hpp:554.

### C22

* `C22_outputs_violated` (`Props/Linear.lean`) — **C22** is violated: two of the output kinds
  offered by the evaluator are not accepted by the linear material – the Cauchy stress and the
  principal stress directions raise an error (and the latter would continue with a reshape of 6 to
  9 entries).
  Code: gsMaterialMatrixEval.hpp:192-206, 229-243, 264-267, 354-369 with
  gsMaterialMatrixLinear.hpp:314-520.

### C26

* `C26_pstressM_violated` (`Props/Integrate.lean`) — **C26** is violated: for a material constant
  through the thickness the flexural principal stress delivered by the evaluator is zero for every
  thickness and every value, while the bending resultant of the same quantity is `t³/12` times it.
  Code: gsMaterialMatrixIntegrate.hpp:228-242 (`multiplyZ_into(u,getMoment(),…)` with moment 1),
  gsMaterialMatrixIntegrate.h:231-269.

### C30

* `C30_coupling_violated` (`Props/Composite.lean`) — **C30** is violated: in an unsymmetric
  laminate pure bending causes a normal force (`B κ ≠ 0`), but the returned force resultant does
  not contain it, and likewise the moment.
  Code: gsMaterialMatrixComposite.hpp:297-324 (VectorN uses A only, VectorM uses D only).

### C32

* `C32_toSurface_violated` (`Props/Composite.lean`) — **C32** is violated for skew
  parametrisations: with tangents `(1,0,0)`, `(2,1,0)` (dual basis `(1,-2,0)`, `(0,1,0)`) the
  transformed stiffness of an isotropic laminate differs from the tensor components, and is not
  even symmetric.
  Code: gsMaterialMatrixComposite.hpp:271-277, 356-394.

### C33

* `C33_raw_violated` (`Props/Composite.lean`) — **C33** is violated by the constructor from nine
  raw entries: it stores `G12` in row 2, column 1 and `G21` in row 1, column 2, while `G13`,
  `G31`, `G23`, `G32` are placed as named.
  Code: getMaterialMatrix.h:54-77.

### C35

* `C35_should_differ_violated` (`Props/Transform.lean`) — **C35** … although the transformation
  with the contravariant basis is different: a plane with first tangent of length 2.
  Code: gsMaterialMatrixBaseDim.hpp:104.
* `C35_spec2con_equals_spec2cov_violated` (`Props/Transform.lean`) — **C35** is violated: the two
  reported transformations are the same for every surface, height and spectral basis.
  Code: gsMaterialMatrixBaseDim.hpp:104 (`conbasis = m_gcov_ori`), compare l.82.

### C37

* `C37_unknown_violated` (`Props/TFT.lean`) — C37 (violated): an unknown criterion is not
  rejected, the returned matrix was never written.
  Code: gsMaterialMatrixBaseDim.hpp:302-342 (no final `else`; `result` uninitialised).

### C38

* `C38_acceptance_violated` (`Props/TFT.lean`) — C38 (violated, acceptance test): a positive
  definite linear material and an angle which is an exact zero and passes the acceptance test,
  with a compressive remaining stress: the test multiplies the shear strain (already doubled in
  Voigt form) by two.
  Code: gsMaterialMatrixTFT.hpp:594-608.

### C39

* `C39_linear_violated` (`Props/TFTTangent.lean`) — C39 (violated, linear variant): a positive
  definite constant elasticity matrix and a family of wrinkled states passing the acceptance test
  whose stress velocity is not the tangent times the strain velocity.
  Code: gsMaterialMatrixTFT.hpp:836-884.
* `C39_nonlinear_violated` (`Props/TFTTangent.lean`) — C39 (violated, nonlinear variant): for a
  hyperelastic material with strain-dependent elasticity matrix the tangent is not the derivative
  of the wrinkled stress (the product with the elasticity matrix is taken in transposed order).
  Code: gsMaterialMatrixTFT.hpp:886-945.
* `C39_symmetry_violated` (`Props/TFTTangent.lean`) — C39 (violated, symmetry of the linear
  variant).
  Code: gsMaterialMatrixTFT.hpp:836-884.

### C40

* `C40_violated` (`Props/TFT.lean`) — C40 (violated): in a wrinkled point the Cauchy stress is not
  the modified stress over the Jacobian.
  Code: gsMaterialMatrixTFT.hpp:199-246.

### C41

* `C41_bracket_violated` (`Props/RootFind.lean`) — C41 (violated, bracket): success with a
  returned point outside the bracket although the function changes sign on it.
  Code: gsMaterialMatrixTFT.hpp:1069-1089.
* `C41_complete_violated` (`Props/RootFind.lean`) — C41 (violated, completeness): a function
  changing sign on the bracket for which no iteration limit leads to success.
  Code: gsMaterialMatrixTFT.hpp:1069-1089.
* `C41_sound_violated` (`Props/RootFind.lean`) — C41 (violated, soundness): the function has no
  zero at all, the bracket is regular, and success is reported for every iteration limit of at
  least one.
  Code: gsMaterialMatrixTFT.hpp:1069-1089.

### C42

* `C42_decreasing_violated` (`Props/RootFind.lean`) — C42 (violated): for the decreasing function
  `7/8 - z` on `[0,1]` success is reported at `0`, whose distance to the only zero is more than
  ten times the tolerance.
  Code: gsMaterialMatrixTFT.hpp:1105-1245.

### C43

* `C43_stale_violated` (`Props/TFTTheta.lean`) — C43 (violated): whatever the root finders do,
  after a point with an angle in the first quadrant the shear point is given that same angle.
  Code: gsMaterialMatrixTFT.hpp:455-578 (`theta` declared outside the loop over the points).
* `C43_violated` (`Props/TFTTheta.lean`) — C43 (violated): there are search procedures, two points
  and two orders such that the angle of the second point differs from the angle it gets alone or
  after another point.
  Code: gsMaterialMatrixTFT.hpp:455-578.

### C47

* `C47_incompressible_other_violated` (`Props/HyperReference.lean`) — **C47** With another
  Poisson's ratio given, the incompressible material is not the given linear material in the
  small-strain limit: for `E = 1`, `ν = 0` the tangent differs.
  Code: gsMaterialMatrixNonlinear.hpp:1309-1317 (`mu = E/(2(1+nu))` also for incompressible
  materials).

### C52

* `C52_positive_violated` (`Props/Newton.lean`) — **C52** The returned stretch need not be
  positive and the normal stress at it need not be small: for `μ = 1`, `λ = 0` and a compressed
  state the iteration returns `-5·10⁻¹¹`, where the normal stress exceeds `10¹⁰`. The test is on
  the scaled increment, which vanishes at a zero stretch as well.
  Code: gsMaterialMatrixNonlinear.hpp:1886-1931 (positivity test commented out at l.1916).

### C54

* `C54_violated` (`Props/Newton.lean`) — **C54** The Cauchy stress of every compressible material
  is reported as zero, whatever the stress.
  Code: gsMaterialMatrixNonlinear.hpp:1046-1070 (`Smat.col(..) /= detF`, but `result` is
  returned).
* `C54_witness_violated` (`Props/Newton.lean`) — **C54** A concrete case: unit stress, unit
  Jacobian, the Cauchy stress is the stress itself but zero is returned.
  Code: gsMaterialMatrixNonlinear.hpp:1046-1070.

### C55

* `C55_first_height_violated` (`Props/Newton.lean`) — **C55** At every height the principal
  stretch of the first height is used.
  Code: gsMaterialMatrixNonlinear.hpp:594 (`C33s(0,k)` instead of `C33s(0,colIdx)`).
* `C55_violated` (`Props/Newton.lean`) — **C55** Concrete material and states: one point, the
  first height undeformed, the second stretched in one direction. The thickness stretch of the
  second height is near `√(2/3)`, but 1 is reported.
  Code: gsMaterialMatrixNonlinear.hpp:594.

### C56

* `C56_halved_violated` (`Props/Newton.lean`) — **C56** In general the shear component is halved.
  Code: gsMaterialMatrixNonlinear.hpp:386-388 with l.56-80.
* `C56_violated` (`Props/Newton.lean`) — **C56** Concrete witness: at a sheared deformation the
  Mooney–Rivlin tangent at the point of differentiation differs from the tangent at the
  deformation.
  Code: gsMaterialMatrixNonlinear.hpp:386-388 with l.56-80.

### C58

* `C58_stress_violated` (`Props/SpectralAgree.lean`) — Consequence for the stress: at that
  deformation the spectral implementation returns zero stress for every incompressible coded
  material, while the analytical neo-Hookean stress does not vanish.
  Code: gsMaterialMatrixBaseDim.hpp:1340-1373, gsMaterialMatrixNonlinear.hpp:1685-1738.
* `C58_violated` (`Props/SpectralAgree.lean`) — **C58** is violated: for the deformation `[[1, ½],
  [½, 1]]` of a plane with orthonormal basis the trace of the tensor is that of the undeformed
  state, the shortcut is taken and both in-plane stretches are reported as 1, whatever the
  eigenvalue solver; 1 is not an eigenvalue.
  Code: gsMaterialMatrixBaseDim.hpp:1340-1373 (the shortcut for the undeformed state compares the
  trace only).

### C60

* `C60_always_first_violated` (`Props/StressFun.lean`) — **C60** is violated: the principal stress
  and its directions are always taken from the first patch, whatever the patch and the fields.
  Code: gsThinShellFunctions.hpp:209, 243, 250, 257 (`eval` without patch index).
* `C60_total_violated` (`Props/StressFun.lean`) — **C60** is violated: the kind `total` is offered
  but never evaluated.
  Code: gsThinShellFunctions.hpp:269.
* `C60_violated` (`Props/StressFun.lean`) — **C60** is violated: … so that they are wrong on every
  other patch where the fields differ.
  Code: gsThinShellFunctions.hpp:209, 243, 250, 257.

### C61

* `C61_flexural_violated` (`Props/StressFun.lean`) — **C61** is violated: for every thickness
  other than 2 and every non-zero bending stress the flexural von Mises output is not the value at
  the outer fibre.
  Code: gsThinShellFunctions.hpp:102, 178-184.

### C62

* `C62_empty_violated` (`Props/FunSum.lean`) — **C62** is violated for empty sums: they can be
  created by the default constructor, and both the constructor from an empty list and every query
  are undefined behaviour.
  Code: gsFunctionSum.h:36-56, 81-93, 115-131.
* `C62_pieces_violated` (`Props/FunSum.lean`) — **C62** is violated for functions with different
  numbers of pieces: the check is an assertion only, and the sum reads out of bounds.
  Code: gsFunctionSum.h:81-93, 145-196.

### C64

* `C64_fields_symmetry_violated` (`Props/Variation.lean`) — **C64** is violated: the version for
  two given fields is not symmetric.
  Code: gsThinShellUtils.h:573-624.
* `C64_fields_violated` (`Props/Variation.lean`) — **C64** is violated: the version for two given
  fields differs from the exact second variation on the unit square (it returns 2 where the exact
  value is 1).
  Code: gsThinShellUtils.h:573-624 (l.608-610).

### C65

* `C65_outer2_violated` (`Props/Boundary.lean`) — **C65** is violated: on a plate parametrised
  with speed 2 the second variation of the outer normal is not its second derivative.
  Code: gsThinShellUtils.h:1034-1163 (columns normalised at l.1045, then used as tangents).

### C67

* `C67_pressure_violated` (`Props/Assembler.lean`) — **C67** is violated: with point loads, a
  pressure vector assembled afterwards does not appear in `rhs()`.
  Code: gsThinShellAssembler.h:401, gsThinShellAssembler.hpp:2227-2256.
* `C67_stale_violated` (`Props/Assembler.lean`) — **C67** is violated: once a vector with point
  loads has been assembled, every later assembly without point loads leaves `rhs()` at the old
  value.
  Code: gsThinShellAssembler.h:401, gsThinShellAssembler.hpp:1615-1620 (`m_rhs` is set only if
  there are point loads and never cleared).

### C68

* `C68_copy_violated` (`Props/Assembler.lean`) — **C68** is violated: the status of a copy of an
  assembler is uninitialised, whatever the original reported.
  Code: gsThinShellAssembler.hpp:100-147 (`m_status` not copied), gsThinShellAssembler.h:137-140,
  703.
* `C68_foundation_violated` (`Props/Assembler.lean`) — **C68** is violated: likewise for the
  foundation vector.
  Code: gsThinShellAssembler.hpp:2273-2285.
* `C68_mass_violated` (`Props/Assembler.lean`) — **C68** is violated: a mass matrix assembled
  successfully as the first call returns an uninitialised status, and after a failed call it
  reports that failure.
  Code: gsThinShellAssembler.hpp:1436-1497 (`m_status = Success` is inside the comment, l.1489),
  gsThinShellAssembler.h:703.
* `C68_pressure_violated` (`Props/Assembler.lean`) — **C68** is violated: the pressure vector with
  the registered pressure reports `Success` in every case, also when its assembly failed.
  Code: gsThinShellAssembler.hpp:2258-2270.

### C69

* `C69_continuity_violated` (`Props/Assembler.lean`) — **C69** is violated: a changed continuity
  option switches the loads off at the next assembly, from every state.
  Code: gsThinShellAssembler.hpp:211-239, 262-265.
* `C69_geometry_violated` (`Props/Assembler.lean`) — **C69** is violated: every change of
  geometry, basis or space basis switches the registered loads off, from every state; the next
  vector lacks the pressure.
  Code: gsThinShellAssembler.hpp:262-265 (`_initialize` switches both loads off),
  gsThinShellAssembler.h:335-375.
* `C69_vector_violated` (`Props/Assembler.lean`) — **C69** is violated: the vector assembled after
  `setPressure`, `setGeometry` lacks the pressure.
  Code: gsThinShellAssembler.hpp:262-265.

### C70

* `C70_add_violated` (`Props/Interfaces.lean`) — **C70** is violated: for every kind of coupling a
  second `add` call forgets the interfaces of the first.
  Code: gsThinShellAssembler.hpp:277-309 (assignment instead of append).
* `C70_replaced_violated` (`Props/Interfaces.lean`) — **C70** is violated: after `addWeakC0 [1]`,
  `addWeakC0 [2]`, `initInterfaces` with default C1, interface 1 is coupled C1 only.
  Code: gsThinShellAssembler.hpp:289-337.
* `C70_unknown_violated` (`Props/Interfaces.lean`) — **C70** is violated: an unknown default is
  accepted when no interface is unassigned.
  Code: gsThinShellAssembler.hpp:311-337.

### C71

* `C71_definite_violated` (`Props/WeakForms.lean`) — **C71** is violated: the contribution to the
  stiffness is negative for every non-zero field, for all positive factors; it is minus the second
  derivative of the penalty energy.
  Code: gsThinShellAssembler.hpp:603, 679, 745, 834.
* `C71_energy_violated` (`Props/WeakForms.lean`) — **C71** is violated: the vector is plus, not
  minus, the derivative of the penalty energy.
  Code: gsThinShellAssembler.hpp:795, 865.
* `C71_planar_violated` (`Props/WeakForms.lean`) — **C71** is violated: in linear planar assembly
  the prescribed displacement does not solve the penalty equations unless the scaled factor `α`
  happens to equal the option `c`; instead the displacement `(c/α) g` does.
  Code: gsThinShellAssembler.hpp:698 against l.679.

### C72

* `C72_measure_violated` (`Props/WeakForms.lean`) — **C72** is violated: the planar linear matrix
  weighs the jump with the square of the line measure; it differs from the planar nonlinear matrix
  wherever the measure is not 1.
  Code: gsThinShellAssembler.hpp:993-1001.
* `C72_planar_violated` (`Props/WeakForms.lean`) — **C72** is violated: in planar nonlinear
  assembly the matrix is plus the derivative of the vector (for all data), hence not minus it
  whenever it is not zero.
  Code: gsThinShellAssembler.hpp:1256-1264 against l.1294-1298.

### C73

* `C73_in_symmetry_violated` (`Props/WeakCoupling.lean`) — **C73** is violated: the coded in-plane
  matrix is not symmetric for the folded patches of `C73_in_violated`.
  Code: gsThinShellAssembler.hpp:1120-1136.
* `C73_in_violated` (`Props/WeakCoupling.lean`) — **C73** is violated: for two patches folded at
  the interface (reference state flat), the coded in-plane matrix is zero for a tilt of the left
  and a shear of the right patch, while the derivative of the vector is not.
  Code: gsThinShellAssembler.hpp:1120-1136 against l.1219-1228.

### C74

* `C74_second_violated` (`Props/WeakCoupling.lean`) — **C74** is violated: the second-order term
  of the coded matrix contracts the second derivatives of the surface with the components of the
  boundary normal; for a flat surface it is zero although the second variation of the normal is
  not.
  Code: gsThinShellAssembler.hpp:753 (`var2deriv2` where the second variation itself is meant).
* `C74_vector_violated` (`Props/WeakCoupling.lean`) — **C74** is violated: in the reference state
  the derivative of the clamping vector is zero in every direction, for every regular surface and
  every boundary normal, because the vector projects the variation of the normal on the normal
  itself.
  Code: gsThinShellAssembler.hpp:800-807 (`var1(m_space,m_def) * usn(m_ori)`).
* `C74_violated` (`Props/WeakCoupling.lean`) — **C74** is violated: for a flat plate turned about
  its clamped side the coded matrix is not minus the derivative of the coded vector.
  Code: gsThinShellAssembler.hpp:747-757 against l.800-807.

### C75

* `C75_foundation_violated` (`Props/WeakForms.lean`) — **C75** is violated: the foundation vector
  is `+k u`, so the matrix is plus the derivative of the vector for all data, and never minus it
  unless it is zero: the foundation pushes the shell away.
  Code: gsThinShellAssembler.hpp:551-553 against l.532-534 and the sign of the internal force
  (l.2038-2042).
* `C75_sign_violated` (`Props/WeakForms.lean`) — **C75** is violated: with stiffness 1 the
  residual of a displacement in its own direction is positive instead of negative.
  Code: gsThinShellAssembler.hpp:551-553.

### C76

* `C76_basis_violated` (`Props/Solution.lean`) — **C76** is violated for geometries on another
  basis than the solution: the coefficient matrices have different sizes, which only an assertion
  checks.
  Code: gsThinShellAssembler.hpp:2484-2485.
* `C76_mapped_ub_violated` (`Props/Solution.lean`) — **C76** is violated for mapped bases: if a
  patch has fewer local coefficients than the mapper has functions, the extraction reads outside
  the coefficient matrix.
  Code: gsThinShellAssembler.hpp:2704-2714.
* `C76_mapped_violated` (`Props/Solution.lean`) — **C76** is violated for mapped bases: the round
  trip of the vector (0, 2, 0, 0) gives 1 instead of 2 at the second entry.
  Code: gsThinShellAssembler.hpp:2633-2659 and 2699-2718.

### C77

* `C77_violated` (`Props/Solution.lean`) — **C77** is violated: the geometry passed in is ignored.
  For every other geometry the result differs from that geometry plus the displacement, at every
  coefficient that differs from the undeformed one.
  Code: gsThinShellAssembler.hpp:2480-2488 (the argument `undeformed` is not used).

### C80

* `C80_copy_violated` (`Props/Interfaces.lean`) — **C80** is violated: a copy of a container-built
  assembler uses the original's basis: `setBasis` on the copy has no effect, `setBasis` on the
  original changes the copy, and after destruction of the original the copy dangles.
  Code: gsThinShellAssembler.hpp:107-108 (`m_spaceBasis=other.m_spaceBasis`).
* `C80_move_violated` (`Props/Interfaces.lean`) — **C80** is violated: an assembler moved from a
  container-built one uses what is left in the moved-from object, and dangles when that is
  destroyed, as it is after a return by value or the growth of a vector.
  Code: gsThinShellAssembler.hpp:149-157 (`m_spaceBasis=give(other.m_spaceBasis)`).
* `C80_pointer_violated` (`Props/Interfaces.lean`) — **C80** is violated: an assembler built with
  a material pointer keeps its old basis after `setBasis`, for all bases; if the outside object
  dies, its space dangles.
  Code: gsThinShellAssembler.hpp:69-98, 256.

### C81

* `C81_deformation_violated` (`Props/Queries.lean`) — **C81** is violated: the deformation norm
  between a geometry and itself is positive unless the geometry is the origin.
  Code: gsThinShellAssembler.hpp:2906.
* `C81_energy_violated` (`Props/Queries.lean`) — **C81** is violated: the energy of a stretched
  square of linear material changes under translations.
  Code: gsThinShellAssembler.hpp:2558 (`u.tr() * (m_N+m_M).tr()`).
* `C81_mean_violated` (`Props/Queries.lean`) — **C81** is violated: the displacement is weighed
  with the deformed area but divided by the undeformed one, so that the norm exceeds the largest
  displacement for stretched shells.
  Code: gsThinShellAssembler.hpp:2535-2538.
* `C81_negative_violated` (`Props/Queries.lean`) — **C81** is violated: the energy of a stretched
  square of linear material can be negative.
  Code: gsThinShellAssembler.hpp:2558.

### C82

* `C82_violated` (`Props/Loads.lean`) — **C82** is violated: whatever the element mass matrix,
  every registered point mass is ignored; the matrix misses exactly its contribution, which is not
  zero.
  Code: gsThinShellAssembler.hpp:1465-1490 (`_applyMass()` is inside the comment).

### C83

* `C83_flexural_violated` (`Props/StressFun.lean`) — **C83** is violated: for a twisted plane with
  oblique tangents even the normal component of the flexural strain output is wrong (−4 instead of
  −2).
  Code: gsThinShellFunctions.hpp:93.

### C84

* `C84_directions_violated` (`Props/StressFun.lean`) — **C84** is violated: no material provides
  the principal stress directions. The linear material refuses its own output kind, the nonlinear
  one reads past the end of a two-row matrix.
  Code: gsThinShellFunctions.hpp:243-262, gsMaterialMatrixNonlinear.hpp:650, 670.
* `C84_displacement_violated` (`Props/StressFun.lean`) — **C84** is violated: the displacement
  output of a planar geometry declares three rows and gets two.
  Code: gsThinShellFunctions.h:116-225, gsThinShellFunctions.hpp:110-120.
* `C84_laminate_violated` (`Props/StressFun.lean`) — **C84** is violated: … and no other kind is
  available for a laminate: the principal strains and stretches follow an unset pointer, the rest
  is refused.
  Code: gsMaterialMatrixBase.h:440-500, gsMaterialMatrixBaseDim.hpp:401.

### C85

* `C85_copy_violated` (`Props/FunSum.lean`) — **C85** is violated: the pieces of a copy keep
  pointing to the original, so evaluating the copy after the original is gone is undefined
  behaviour.
  Code: gsFunctionSum.h:92-99, 209.
* `C85_print_oob_violated` (`Props/FunSum.lean`) — **C85** is violated: printing counts functions
  instead of pieces and leaves the vector of pieces when there are more functions than pieces –
  for example the usual sum of geometry and displacement on a single patch.
  Code: gsFunctionSum.h:68-73.
* `C85_print_violated` (`Props/FunSum.lean`) — **C85** is violated: printing never lists the first
  piece, so it is right for no sum with at least one piece.
  Code: gsFunctionSum.h:68-73.

### C86

* `C86_default_violated` (`Props/Interfaces.lean`) — **C86** is violated: with the default options
  (continuity −1, default coupling C1), every interface without an assignment gets the rotational
  penalty but its displacement is not coupled at all.
  Code: gsThinShellAssembler.hpp:190-207 (defaults), 326-334, 907-1300 (displacement penalty on
  `m_weakC0` only).
* `C86_strong_violated` (`Props/Interfaces.lean`) — **C86** is violated: the strong coupling lists
  have no effect; an interface in them is not coupled in a discontinuous space.
  Code: gsThinShellAssembler.hpp:277-287, 338 ("Set strong C0 using the setup function" is a
  comment only).
* `C86_uncoupled_violated` (`Props/Interfaces.lean`) — **C86** is violated: with a continuous
  space an interface declared uncoupled is coupled.
  Code: gsThinShellAssembler.hpp:305-309, 1304-1311.

### C87

* `C87_mean_violated` (`Props/Queries.lean`) — **C87** is violated: for two parametrisations of
  one surface with opposite orientation the mean curvature error is not zero (the G1 error is not
  zero either).
  Code: gsThinShellAssembler.hpp:2620-2621.
* `C87_normal_violated` (`Props/Queries.lean`) — **C87** is violated: the error of the normals is
  that of the vectors `sn`, which are not normalised; it is positive for two parametrisations of
  the same surface (every regular surface, first parameter doubled).
  Code: gsThinShellAssembler.hpp:2601 (`sn` is not normalised).
* `C87_scale_violated` (`Props/Queries.lean`) — **C87** is violated in scale: the value compared
  is the trace, twice the mean curvature, for a unit sphere 2 instead of 1.
  Code: gsThinShellAssembler.hpp:2620-2621.

### C88

* `C88_same_violated` (`Props/Queries.lean`) — **C88** is violated: all interfaces get the same
  class.
  Code: gsThinShellAssembler.hpp:2922 (the integral runs over all interfaces).
* `C88_violated` (`Props/Queries.lean`) — **C88** is violated: a flat interface is classified as
  out-of-plane because another interface has a kink.
  Code: gsThinShellAssembler.hpp:2922, 2947.

### C89

* `C89_violated` (`Props/Layout.lean`) — **C89** is violated: for compressible materials the
  principal stretches (and their directions) on the mid-surface read outside the 1×1 matrix of
  heights for any two or more points, whatever the material.
  Code: gsMaterialMatrixNonlinear.hpp:231-233, 279-281 (1×1 `zmat`), 1884 (`z(j,k)`).

### C90

* `C90_eigen_violated` (`Props/DWR.lean`) — **C90** The goals `Modal` and `Buckling` are listed
  among the goal functions, but the goal itself is never computed.
  Code: gsThinShellAssemblerDWR.hpp:2963-2965 (`GISMO_ERROR`).
* `C90_flexural_stress_violated` (`Props/DWR.lean`) — **C90** The goal `FlexuralStress` of a
  non-linear material is the membrane stress at the mid-surface: its derivative along a stretch is
  1, the assembled dual is 0.
  Code: gsMaterialMatrixNonlinear.hpp:509, 549-551, 709; gsThinShellAssemblerDWR.hpp:299.
* `C90_height_violated` (`Props/DWR.lean`) — **C90** Above the mid-surface the membrane stress of
  a non-linear material depends on the curvature, and its dual does not.
  Code: gsMaterialMatrixNonlinear.hpp:509; gsThinShellAssemblerDWR.hpp:293.
* `C90_shear_violated` (`Props/DWR.lean`) — **C90** Component 2 of `Stretch`: the transformed
  tensor has no shear entry, the goal is zero for every deformation, but the assembled dual is
  not.
  Code: gsThinShellAssemblerDWR.hpp:277-278 (`lambda_der` keeps the transformation fixed).

### C91

* `C91_flexural_violated` (`Props/DWR.lean`) — **C91** All components of the flexural strain: the
  dual doubles the twist twice (16 instead of the derivative 8).
  Code: gsThinShellAssemblerDWR.hpp:1004-1006.
* `C91_force_violated` (`Props/DWR.lean`) — **C91** A component of the membrane force: the goal is
  computed, the assembly of the dual fails.
  Code: gsThinShellAssemblerDWR.hpp:986.

### C92

* `C92_force_violated` (`Props/DWR.lean`) — **C92** A component of the membrane force at a point:
  for every test function but the first, the value is read outside the 1×1 result; for the first
  one the entry is the force itself.
  Code: gsThinShellAssemblerDWR.hpp:1462.
* `C92_pstress_violated` (`Props/DWR.lean`) — **C92** The squared principal stresses at a point:
  the goal is computed, the dual multiplies a row of three entries with a vector of two.
  Code: gsThinShellAssemblerDWR.hpp:1340.
* `C92_stretch_component_violated` (`Props/DWR.lean`) — **C92** A component of the stretch at a
  point is computed from the displacement: a stretch in place does not change the goal, but has
  the dual 2.
  Code: gsThinShellAssemblerDWR.hpp:3310.
* `C92_stretch_violated` (`Props/DWR.lean`) — **C92** The squared stretches at a point are
  computed with the transposed transformation.
  Code: gsThinShellAssemblerDWR.hpp:3246.

### C93

* `C93_points_violated` (`Props/DWR.lean`) — **C93** The displacement at a point depends on the
  parametrisation: the value is multiplied by the area element.
  Code: gsThinShellAssemblerDWR.hpp:3263-3520 (`meas(Gori)` at a point).
* `C93_strain_violated` (`Props/DWR.lean`) — **C93** Components of the membrane strain are
  covariant components: doubling the first coordinate multiplies the integrand by 8 instead of 2.
  Code: gsThinShellAssemblerDWR.hpp:2811, 2890-2900.
* `C93_stretch_violated` (`Props/DWR.lean`) — **C93** The stretch goal on the domain depends on
  the parametrisation: for the undeformed square the integrand is 1, after doubling both
  coordinates it is 64 instead of 4.
  Code: gsMaterialMatrixBaseDim.hpp:103.

### C94

* `C94_loads_violated` (`Props/DWRError.lean`) — **C94** Without `withLoads`, which is the
  default, the point loads of the primal problem are missing in all three estimates.
  Code: gsThinShellAssemblerDWR.hpp:1763, 1877, 1974; gsThinShellAssemblerDWR.h (default
  `withLoads=false`).
* `C94_neumann_violated` (`Props/DWRError.lean`) — **C94** For shells the boundary tractions are
  missing as well without `withLoads`; for the same data the estimates of membranes and of linear
  problems contain them.
  Code: gsThinShellAssemblerDWR.hpp:1874-1875.
* `C94_pressure_violated` (`Props/DWRError.lean`) — **C94** A pressure is part of the primal
  problem but of no estimate.
  Code: gsThinShellAssemblerDWR.hpp:1898-1911, 1992-2005 (commented out).

### C95

* `C95_neumann_violated` (`Props/DWRError.lean`) — **C95** Boundary tractions enter the total
  estimate but no element error, and not the error reported by the element-wise computation.
  Code: gsThinShellAssemblerDWR.hpp:1768-1776, 1882-1890, 1977-1985.

### C96

* `C96_violated` (`Props/DWRError.lean`) — **C96** Two patches with one element each, a load on
  the second patch: the element of the first patch gets two thirds of it.
  Code: gsThinShellAssemblerDWR.hpp:3677, 3711.

### C97

* `C97_loads_violated` (`Props/DWRError.lean`) — **C97** The same for point loads, in the total
  and in the element errors.
  Code: gsThinShellAssemblerDWR.hpp:2077, 2190, 2287.
* `C97_neumann_violated` (`Props/DWRError.lean`) — **C97** Tractions are added to the squared
  estimate without being squared: it can be negative, also without `withLoads`.
  Code: gsThinShellAssemblerDWR.hpp:2067, 2075, 2187, 2283.

### C98

* `C98_dofs_violated` (`Props/DWRError.lean`) — **C98** The function-wise errors, and the error
  reported with them, are those of the last element-wise computation (or the initial ones): they
  depend on earlier calls, have the wrong number, and after a computation with another dual do not
  add up to the estimate.
  Code: gsThinShellAssemblerDWR.hpp:1779, 1893, 1988, 2092, 2205, 2300.

### C99

* `C99_dofs_violated` (`Props/DWREigen.lean`) — **C99** Function-wise eigenvalue errors: in the
  same situation the estimate is 0 instead of 1, and the returned list is the one of the last
  computation, whatever that was.
  Code: gsThinShellAssemblerDWR.hpp:2552-2555, 2729-2730.
* `C99_elements_violated` (`Props/DWREigen.lean`) — **C99** They do not add up to the estimate:
  for an exact estimate of the difference 1 of two eigenvalues, they add up to 2.
  Code: gsThinShellAssemblerDWR.hpp:2547-2550, 2724-2727.
