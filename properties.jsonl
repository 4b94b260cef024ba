{"id": "C01", "title": "Material id encoding is invertible", "statement": "The integer that identifies a hyperelastic material (material model + implementation) decodes to exactly the material and implementation it was built from, two different pairs never share an id, and every two-digit id whose digits are valid is produced by exactly the decoded pair.", "quantifier": "for every material model and every implementation in the enumerations, and for every natural number used as an id", "why_tests_cant": "The map is used as a template argument in dozens of instantiations; a test can only enumerate the few ids that happen to be instantiated, while the claim is about every pair and about injectivity.", "anchors": ["src/gsMaterialMatrixUtils.h:encodeMat_id", "src/gsMaterialMatrixUtils.h:decodeMat_id", "src/gsMaterialMatrixUtils.h:Material", "src/gsMaterialMatrixUtils.h:Implementation"]}
{"id": "C02", "title": "The material factory honours the requested options", "statement": "getMaterialMatrix, for every combination of the options Material, Compressibility and Implementation, either returns a material of exactly the requested model, compressibility and implementation, or reports an error, or returns null; the combinations with each outcome are exactly the documented ones, and the overload without density takes the same decision as the overload with density. In particular null is never returned for an option triple inside the enumerations other than by an explicit error.", "quantifier": "for every integer value of the options Material and Implementation, every value of Compressibility and every number of supplied parameters", "why_tests_cant": "The option space is unbounded (plain integers) and the two overloads are separate copies of a large nested switch; tests exercise a handful of combinations.", "anchors": ["src/getMaterialMatrix.h:getMaterialMatrix"]}
{"id": "C03", "title": "Materials survive an XML write/read round trip", "statement": "Whatever material object the library itself can construct through its factory (optionally wrapped in a tension-field material), writing it to XML and reading it back yields a material of the same kind (model, implementation, compressibility, dimension, tension-field wrapper).", "quantifier": "for every kind of material the factory can return, every dimension 2 or 3, with and without tension-field wrapper", "why_tests_cant": "A test can round-trip a few kinds; the claim is about all kinds the factory can build, including those nobody thought of saving.", "anchors": ["src/gsMaterialMatrixXml.hpp:gsXml", "src/gsMaterialMatrixNonlinear.hpp:type", "src/getMaterialMatrix.h:getMaterialMatrix"]}
{"id": "C04", "title": "Named material parameters do not interfere", "statement": "After any sequence of parameter assignments through the named setters (Young's modulus, Poisson's ratio, Mooney-Rivlin ratio, Ogden mu_i and alpha_i) reading a named parameter returns the value most recently assigned to that name, and a name never assigned through any setter keeps its initial value. The generic indexed setters never read or write outside the parameter list.", "quantifier": "for every initial parameter list, every finite sequence of setter calls and every Ogden index", "why_tests_cant": "Requires all interleavings of setters and all Ogden indices; tests set each parameter once in a fixed order.", "anchors": ["src/gsMaterialMatrixBase.h:setParameter", "src/gsMaterialMatrixBase.h:getParameter", "src/gsMaterialMatrixNonlinear.hpp:setMu", "src/gsMaterialMatrixNonlinear.hpp:setAlpha", "src/gsMaterialMatrixNonlinear.hpp:setRatio"]}
{"id": "C05", "title": "hasUndeformed and hasDeformed report what has been set", "statement": "hasUndeformed() is true exactly when an undeformed geometry is currently registered with the material, and hasDeformed() is true exactly when a deformed geometry is registered.", "quantifier": "for every sequence of setUndeformed / setDeformed calls with null or non-null arguments", "why_tests_cant": "A test that always sets both geometries cannot distinguish the two predicates.", "anchors": ["src/gsMaterialMatrixBase.h:hasUndeformed", "src/gsMaterialMatrixBase.h:hasDeformed"]}
{"id": "C06", "title": "Wrapping a material for tension-field analysis keeps its reference geometry", "statement": "A tension-field material built around a material whose reference (undeformed) geometry is registered evaluates on that same reference geometry, whether or not a deformed geometry is registered.", "quantifier": "for every material state (any combination of registered geometries)", "why_tests_cant": "Tests always construct the wrapper after both geometries are known or pass the geometry later through the evaluator.", "anchors": ["src/gsMaterialMatrixTFT.h:gsMaterialMatrixTFT", "src/gsMaterialMatrixBase.h:hasUndeformed"]}
{"id": "C07", "title": "The material container behaves like an indexed list", "statement": "The container of materials behaves as a list: a container built with size n has n empty slots, add appends one slot, set replaces exactly the addressed slot, piece returns the material last stored in the slot, clear empties; an index outside the list makes piece throw and must never touch memory outside the list. Materials added by reference are snapshots (later changes of the original are not visible), materials added by pointer are aliases (later changes are visible).", "quantifier": "for every sequence of container operations and every index", "why_tests_cant": "Operation sequences and indices are unbounded, and aliasing is only observable through mutation after insertion.", "anchors": ["src/gsMaterialMatrixContainer.h:add", "src/gsMaterialMatrixContainer.h:set", "src/gsMaterialMatrixContainer.h:piece", "src/gsMaterialMatrixContainer.h:clear"]}
{"id": "C08", "title": "Reading a material container from XML assigns every listed patch its group's material", "statement": "After reading a container from XML, each patch listed in at least one group holds the material of the last group that lists it, unlisted patches are empty, the size is the declared one, and a file whose indices are out of range is rejected rather than corrupting memory.", "quantifier": "for every inventory of materials, every list of groups and every declared size", "why_tests_cant": "The space of input files is unbounded and overlapping groups are not covered by tests.", "anchors": ["src/gsMaterialMatrixContainer.hpp:get_into"]}
{"id": "C09", "title": "Point/height result columns are addressed without collision or overflow", "statement": "For every evaluation over n points and m thickness coordinates, the column used for (point k, height j) lies inside the result matrix, different (k,j) use different columns and every column is used. This holds for all evaluated quantities, including the basis transformations and the tension-field angle and multiplier.", "quantifier": "for every number of points n, every number of heights m, all k<n and j<m, and every evaluated quantity", "why_tests_cant": "Out-of-bounds writes may stay silent in release builds, and tests use one height for the affected quantities.", "anchors": ["src/gsMaterialMatrixBaseDim.hpp:eval3D_spec2cov", "src/gsMaterialMatrixBaseDim.hpp:eval3D_cov2cart", "src/gsMaterialMatrixTFT.hpp:eval3D_theta", "src/gsMaterialMatrixBaseDim.hpp:eval3D_strain"]}
{"id": "C10", "title": "Evaluators built on one material do not influence each other", "statement": "An evaluator (integrated or pointwise material quantity) built for a given deformed geometry evaluates on that geometry for its whole life time, no matter how many other evaluators are later built from the same material for other geometries. In particular the mixed-integration-point stiffness uses the current geometry for its material tangent and the previous geometry for its stresses.", "quantifier": "for every sequence of evaluator constructions on a shared material", "why_tests_cant": "Only sequences that interleave evaluators for different geometries show it; the affected assembly path has no test.", "anchors": ["src/gsMaterialMatrixIntegrate.h:gsMaterialMatrixIntegrateSingle", "src/gsMaterialMatrixEval.h:gsMaterialMatrixEvalSingle", "src/gsThinShellAssembler.hpp:assembleMatrix_impl"]}
{"id": "C11", "title": "A pointwise evaluator given both geometries uses both", "statement": "A pointwise evaluator constructed with an undeformed and a deformed geometry registers the undeformed one as reference and the deformed one as current configuration, so that it reports non-zero strain whenever the two geometries have different metrics.", "quantifier": "for every pair of geometries", "why_tests_cant": "Tests use the constructor without undeformed geometry.", "anchors": ["src/gsMaterialMatrixEval.h:gsMaterialMatrixEvalSingle"]}
{"id": "C12", "title": "Integrated evaluators can be built for any number of patches", "statement": "Constructing an integrated evaluator for a geometry with any number of patches succeeds and gives one evaluator piece per patch, for every constructor.", "quantifier": "for every number of patches and every constructor", "why_tests_cant": "The affected constructor is only exercised with single-patch geometries.", "anchors": ["src/gsMaterialMatrixIntegrate.h:gsMaterialMatrixIntegrate"]}
{"id": "C13", "title": "Contravariant metric and basis are dual to the covariant ones", "statement": "For every surface point with linearly independent tangents, the contravariant metric is the inverse of the covariant metric, it is symmetric, and the contravariant basis vectors satisfy a^i . a_j = delta_ij and lie in the tangent plane.", "quantifier": "for every pair of linearly independent tangent vectors in R^3", "why_tests_cant": "Real-valued inputs; tests check finitely many geometries to a tolerance.", "anchors": ["src/gsMaterialMatrixBaseDim.hpp:_computeMetricDeformed", "src/gsMaterialMatrixBaseDim.hpp:_computeMetricUndeformed"]}
{"id": "C14", "title": "The metric at height z is the Gram matrix of the basis at height z", "statement": "At thickness coordinate z the covariant metric equals the Gram matrix of the covariant basis a_i + z n_,i, n; it equals A - 2 z B + z^2 (n_,i . n_,j); the normal derivative n_,i = -B_i^j a_j is orthogonal to the normal and reproduces the curvature (n_,i . a_j = -B_ij); and the contravariant basis at height z is dual to the covariant one.", "quantifier": "for every pair of independent tangents, every symmetric curvature tensor and every z at which the metric is invertible", "why_tests_cant": "Identity over the reals in eight parameters; tests sample points.", "anchors": ["src/gsMaterialMatrixBaseDim.hpp:_getMetricDeformed", "src/gsMaterialMatrixBaseDim.hpp:_getMetricUndeformed"]}
{"id": "C15", "title": "Planar problems use the inverse metric as contravariant metric", "statement": "Also for planar (two-dimensional) geometries the contravariant metric used by the constitutive law is the inverse of the covariant metric, so that the membrane response does not depend on the parametrisation.", "quantifier": "for every planar geometry with non-singular Jacobian", "why_tests_cant": "All planar tests use unit-square-like parametrisations where the metric is the identity.", "anchors": ["src/gsMaterialMatrixBaseDim.hpp:_getMetricDeformed", "src/gsMaterialMatrixBaseDim.hpp:_getMetricUndeformed", "src/gsMaterialMatrixLinear.hpp:_Cijkl"]}
{"id": "C16", "title": "Rigid motions produce no strain", "statement": "If the deformed geometry is a rigid motion of the undeformed one, the Green-Lagrange strain is zero at every height through the thickness, membrane and bending strains vanish and the area ratio is one. Conversely zero membrane strain means equal first fundamental forms.", "quantifier": "for every tangent pair, curvature vectors, rotation and translation and every height z", "why_tests_cant": "Quantifies over all rotations and geometries.", "anchors": ["src/gsMaterialMatrixBaseDim.hpp:eval3D_strain", "src/gsMaterialMatrixLinear.hpp:_E"]}
{"id": "C17", "title": "Squared area ratio", "statement": "The squared Jacobian used by the material laws is the ratio of the determinants of deformed and undeformed metric, it is 1 when the geometries coincide, a negative ratio is reported as an error and the degenerate case is well defined.", "quantifier": "for all real determinants", "why_tests_cant": "Edge cases (zero, negative determinant) do not occur in regular tests.", "anchors": ["src/gsMaterialMatrixBaseDim.hpp:_getMetric"]}
{"id": "C18", "title": "Linear material: stiffness symmetries", "statement": "The linear material's elasticity tensor has both minor symmetries and the major symmetry, hence the 3x3 material matrix is symmetric, and the stress it returns equals matrix times strain vector.", "quantifier": "for every Young's modulus, Poisson's ratio different from 1/2 and -1, every symmetric metric and every strain", "why_tests_cant": "Algebraic identity over reals.", "anchors": ["src/gsMaterialMatrixLinear.hpp:_Cijkl", "src/gsMaterialMatrixLinear.hpp:_Sij", "src/gsMaterialMatrixLinear.hpp:eval3D_matrix"]}
{"id": "C19", "title": "Linear material: plane-stress Hooke law", "statement": "In an orthonormal basis the linear material matrix is the plane-stress Hooke matrix E/(1-nu^2) [[1,nu,0],[nu,1,0],[0,0,(1-nu)/2]], its inverse is the plane-stress compliance, and nu = 1/2 is reported as an error although the plane-stress law has a finite limit.", "quantifier": "for all E and nu with nu not in {-1, 1/2, 1}", "why_tests_cant": "Identity over reals; unit tests compare with one number.", "anchors": ["src/gsMaterialMatrixLinear.hpp:_Cijkl"]}
{"id": "C20", "title": "Linear material: positive strain energy", "statement": "For E>0 and -1<nu<1/2 and every positive definite metric, the quadratic form strain^T C strain is strictly positive for every non-zero strain.", "quantifier": "for all admissible E, nu, all positive definite metrics, all non-zero strains", "why_tests_cant": "Positive definiteness is a statement about infinitely many strains.", "anchors": ["src/gsMaterialMatrixLinear.hpp:_Cijkl", "src/gsMaterialMatrixLinear.hpp:eval3D_matrix"]}
{"id": "C21", "title": "Linear material: response independent of the parametrisation", "statement": "Re-parametrising the surface (any invertible linear change of tangent basis) changes the strain energy density of the linear material neither in its membrane nor in its bending part.", "quantifier": "for every invertible change of tangent basis, strain, metric and material constants", "why_tests_cant": "Quantifies over all reparametrisations.", "anchors": ["src/gsMaterialMatrixLinear.hpp:_Cijkl", "src/gsMaterialMatrixLinear.hpp:_Sij"]}
{"id": "C22", "title": "Linear material: every advertised output can be evaluated", "statement": "Every output kind that the evaluator interface lets a user request from the linear material (stress, Cauchy stress, principal stress, principal stress directions, ...) is computed from the strain of the matching kind, without error.", "quantifier": "for every output kind of the enumeration that reaches the strain computation", "why_tests_cant": "Missing cases of a switch only show for the outputs nobody requests in tests.", "anchors": ["src/gsMaterialMatrixLinear.hpp:_E", "src/gsMaterialMatrixLinear.hpp:eval3D_CauchyStress", "src/gsMaterialMatrixLinear.hpp:eval3D_pstressDir"]}
{"id": "C23", "title": "Closed-form thickness integration is exact", "statement": "For a material declared constant or linear through the thickness, the closed-form moment integration returns exactly the integral over [-t/2,t/2] of z^m f(z) for the constant or linear function f, for every moment m.", "quantifier": "for every thickness, every moment order m and every constant/linear f", "why_tests_cant": "Unbounded m and real data.", "anchors": ["src/gsMaterialMatrixIntegrate.hpp:multiplyZ_into", "src/gsMaterialMatrixIntegrate.hpp:multiplyLinZ_into"]}
{"id": "C24", "title": "Quadrature thickness integration agrees with the exact integral", "statement": "Numerical thickness integration returns sum over quadrature nodes of weight * z^m f(z) * t with z scaled by the thickness; whenever the rule on [-1/2,1/2] is exact for polynomials of degree d, the result is the exact integral over [-t/2,t/2] for every polynomial f with deg f + m <= d, and then agrees with the closed-form integration.", "quantifier": "for every quadrature rule, every thickness, every polynomial profile and moment", "why_tests_cant": "Universally quantified over rules and profiles.", "anchors": ["src/gsMaterialMatrixIntegrate.hpp:integrateZ_into"]}
{"id": "C25", "title": "Resultants and section stiffnesses are consistent", "statement": "For the linear material the membrane force resultant is stiffness A times membrane strain and the moment resultant is stiffness D times bending strain, with A = t C and D = t^3/12 C, and the coupling stiffnesses B and C vanish: the derivative of the resultants with respect to the strains is the assembled section stiffness.", "quantifier": "for every thickness, elasticity matrix, membrane and bending strain", "why_tests_cant": "Relation between four independently computed quantities for all real inputs.", "anchors": ["src/gsMaterialMatrixIntegrate.hpp:eval_into", "src/gsMaterialMatrixIntegrate.h:getMoment", "src/gsMaterialMatrixLinear.hpp:eval3D_vector"]}
{"id": "C26", "title": "Bending principal stress of the linear material", "statement": "The integrated principal bending stress of a material under pure bending is non-zero when the bending stress is non-zero.", "quantifier": "for every thickness > 0 and every pair of principal stresses", "why_tests_cant": "The quantity is only plotted, never compared.", "anchors": ["src/gsMaterialMatrixIntegrate.hpp:eval_into", "src/gsMaterialMatrixIntegrate.h:getMoment"]}
{"id": "C27", "title": "Laminate stiffnesses are the exact layer integrals", "statement": "The A, B (=C) and D matrices of a laminate equal the integrals of the layer stiffness times 1, z and z^2 over the thickness, where layers are stacked from the top and z is measured from the mid-surface.", "quantifier": "for every number of layers, thicknesses and layer stiffnesses", "why_tests_cant": "Arbitrary layer counts and reals.", "anchors": ["src/gsMaterialMatrixComposite.hpp:eval3D_matrix"]}
{"id": "C28", "title": "Mid-plane symmetric laminates have no membrane-bending coupling", "statement": "Reversing the stacking sequence leaves A and D unchanged and negates B; hence a laminate whose stacking sequence is a palindrome has B = 0.", "quantifier": "for every stacking sequence", "why_tests_cant": "Arbitrary layer counts.", "anchors": ["src/gsMaterialMatrixComposite.hpp:eval3D_matrix"]}
{"id": "C29", "title": "Splitting a ply changes nothing", "statement": "Replacing one layer by two consecutive layers of the same stiffness, density and orientation whose thicknesses add up to the original thickness changes none of A, B, D, total thickness and mass per area.", "quantifier": "for every stacking sequence, every layer and every split of its thickness", "why_tests_cant": "Arbitrary layer counts and reals.", "anchors": ["src/gsMaterialMatrixComposite.hpp:eval3D_matrix", "src/gsMaterialMatrixComposite.hpp:density_into"]}
{"id": "C30", "title": "Laminate resultants include membrane-bending coupling", "statement": "The force and moment resultants of a laminate are N = A eps + B kappa and M = B eps + D kappa, consistent with the stiffness matrices the same object returns.", "quantifier": "for every laminate, membrane strain and bending strain", "why_tests_cant": "Tests use symmetric laminates, for which the coupling vanishes.", "anchors": ["src/gsMaterialMatrixComposite.hpp:eval3D_vector"]}
{"id": "C31", "title": "Ply rotation", "statement": "Rotating the ply axes by phi transforms the stiffness as a fourth-order tensor: rotation by 0 is the identity, rotations compose additively, rotation by pi changes nothing, an isotropic ply is unaffected, and the stored energy of a strain equals the energy of the rotated strain.", "quantifier": "for all angles and all ply stiffnesses", "why_tests_cant": "Quantifies over all angles.", "anchors": ["src/gsMaterialMatrixComposite.hpp:_transformationMatrix"]}
{"id": "C32", "title": "Laminate stiffness is transformed to the surface basis as a tensor", "statement": "The conversion of the laminate stiffness from the local Cartesian frame to the surface basis uses the tensor transformation built from the products of basis vectors, for every (possibly skew) parametrisation.", "quantifier": "for every pair of frames", "why_tests_cant": "Skew parametrisations are not tested.", "anchors": ["src/gsMaterialMatrixComposite.hpp:_cart2cov", "src/gsMaterialMatrixComposite.hpp:_con2cart"]}
{"id": "C33", "title": "Orthotropic stiffness constructors", "statement": "The orthotropic plane-stress stiffness built from engineering constants is symmetric whenever the reciprocity relation holds (otherwise an error is reported), and it is the inverse of the orthotropic compliance; the constructor from raw entries places entry G_ij at row i, column j.", "quantifier": "for all engineering constants with 1 - nu12 nu21 and the moduli non-zero, and all raw entries", "why_tests_cant": "Real-valued inputs; symmetric raw input hides index swaps.", "anchors": ["src/getMaterialMatrix.h:gsCompositeMatrix", "src/getMaterialMatrix.h:gsCompositeMatrixRaw"]}
{"id": "C34", "title": "Change-of-basis matrix for Voigt vectors is the tensor law", "statement": "The 3x3 matrix returned for a pair of bases maps the Voigt components of a symmetric tensor S = S'^{ab} b1_a x b1_b to the values b2_i . S . b2_j; for orthonormal bases of the same plane the matrices of the two directions are inverse to each other.", "quantifier": "for all pairs of bases and all symmetric tensors", "why_tests_cant": "Identity over the reals.", "anchors": ["src/gsMaterialMatrixBaseDim.hpp:_transformation"]}
{"id": "C35", "title": "Spectral-to-covariant and spectral-to-contravariant transformations differ", "statement": "The spectral-to-contravariant transformation is built from the contravariant basis and the spectral-to-covariant one from the covariant basis, so the two reported transformations differ whenever the two bases differ.", "quantifier": "for every geometry whose covariant and contravariant bases differ", "why_tests_cant": "On orthonormal parametrisations both coincide.", "anchors": ["src/gsMaterialMatrixBaseDim.hpp:eval3D_spec2con", "src/gsMaterialMatrixBaseDim.hpp:eval3D_spec2cov"]}
{"id": "C36", "title": "Cartesian transformation expressions", "statement": "The covariant-to-Cartesian expression maps contravariant stress components to local Cartesian components, the contravariant-to-Cartesian expression maps covariant strain components, the local Cartesian frame is orthonormal, and stress power is preserved: the two transformations are inverse-transposed to each other up to the Voigt shear factor.", "quantifier": "for every pair of independent tangents and every tensor", "why_tests_cant": "Identity over the reals.", "anchors": ["src/gsThinShellUtils.h:cartcov_expr", "src/gsThinShellUtils.h:cartcon_expr"]}
{"id": "C37", "title": "Tension-field state is a total, exclusive classification", "statement": "Each point is classified as exactly one of taut (1), wrinkled (0), slack (-1); points whose minimal principal value is non-negative up to the relative tolerance 1e-12 are taut, the remaining points whose maximal principal strain (stress for the stress criterion) is negative are slack, all others are wrinkled, for each of the three criteria; and an unknown criterion is rejected.", "quantifier": "for all principal strains and stresses and every integer value of the criterion option", "why_tests_cant": "Real inputs and arbitrary option values.", "anchors": ["src/gsMaterialMatrixBaseDim.hpp:_tensionField", "src/gsMaterialMatrixBaseDim.hpp:eval3D_tensionfield"]}
{"id": "C38", "title": "Wrinkled stress is uniaxial tension", "statement": "In a wrinkled point the modified stress has zero component in the wrinkling direction; at the angle returned by a successful angle search it also has no shear in the wrinkling frame, hence it is uniaxial; the stress in the remaining direction and the wrinkling strain have the required signs when the acceptance test passes. Taut points are unmodified; slack points are multiplied by the slack multiplier.", "quantifier": "for every stress, symmetric elasticity matrix with non-zero directional stiffness, and angle", "why_tests_cant": "Identity and inequality over reals.", "anchors": ["src/gsMaterialMatrixTFT.hpp:_compute_S", "src/gsMaterialMatrixTFT.hpp:_compute_E", "src/gsMaterialMatrixTFT.hpp:eval3D_stress"]}
{"id": "C39", "title": "Wrinkled tangent is the derivative of the wrinkled stress", "statement": "The material tangent in a wrinkled point is the derivative of the wrinkled stress with respect to strain, taking into account the change of angle and wrinkling multiplier; for a constant symmetric elasticity matrix it is therefore symmetric.", "quantifier": "for every elasticity matrix, stress and angle satisfying the wrinkling condition", "why_tests_cant": "For isotropic materials in orthonormal bases the wrong term is multiplied by zero.", "anchors": ["src/gsMaterialMatrixTFT.hpp:_compute_C"]}
{"id": "C40", "title": "Cauchy stress scaling is the same in all tension-field states", "statement": "The Cauchy stress of a tension-field material is the (modified) second Piola-Kirchhoff stress divided by the same Jacobian in taut, slack and wrinkled points.", "quantifier": "for every Jacobian and stress", "why_tests_cant": "With a Jacobian close to one the difference is below test tolerances.", "anchors": ["src/gsMaterialMatrixTFT.hpp:eval3D_CauchyStress"]}
{"id": "C41", "title": "Bisection returns a root", "statement": "When the bisection root finder reports success, the returned point lies in the bracket and the function changes sign within the tolerance around it; when the function changes sign on the bracket and enough iterations are allowed it succeeds.", "quantifier": "for every function, bracket, tolerance and iteration limit", "why_tests_cant": "Fallback code that is reached only when the primary root finder fails.", "anchors": ["src/gsMaterialMatrixTFT.hpp:findRootBisection"]}
{"id": "C42", "title": "Brent's method returns a root", "statement": "When Brent's method reports success, the function vanishes at the returned point or changes sign within the tolerance around it, for increasing and decreasing functions alike; without sign change it reports failure.", "quantifier": "for every continuous function, bracket, tolerance and iteration limit", "why_tests_cant": "Arbitrary functions; tests see only one function family.", "anchors": ["src/gsMaterialMatrixTFT.hpp:findRootBrent"]}
{"id": "C43", "title": "The wrinkling angle at a point does not depend on other points", "statement": "The wrinkling angle computed for a point depends only on the data of that point, not on which points were evaluated before it in the same call.", "quantifier": "for every list of points and every permutation", "why_tests_cant": "Needs two points in a specific order, one of which takes a degenerate branch.", "anchors": ["src/gsMaterialMatrixTFT.hpp:eval_theta"]}
{"id": "C44", "title": "Analytical and generalized implementations agree (incompressible)", "statement": "For incompressible neo-Hookean and Mooney-Rivlin materials the analytical and the generalized implementation return the same stress and the same tangent.", "quantifier": "for all metrics with non-zero area ratio and all parameters", "why_tests_cant": "Identity over reals; tests compare at sample points to 1e-10.", "anchors": ["src/gsMaterialMatrixNonlinear.hpp:_Sij_impl", "src/gsMaterialMatrixNonlinear.hpp:_Cijkl_impl", "src/gsMaterialMatrixNonlinear.hpp:_dPsi_impl", "src/gsMaterialMatrixNonlinear.hpp:_d2Psi_impl"]}
{"id": "C45", "title": "Incompressible tangent is the derivative of the stress", "statement": "For incompressible neo-Hookean and Mooney-Rivlin materials the material tangent equals twice the derivative of the stress with respect to the deformation tensor in every direction.", "quantifier": "for all metrics with positive determinant, all symmetric directions, all parameters", "why_tests_cant": "A finite-difference test has tolerance; the claim is exact and for all directions.", "anchors": ["src/gsMaterialMatrixNonlinear.hpp:_Sij_impl", "src/gsMaterialMatrixNonlinear.hpp:_Cijkl_impl"]}
{"id": "C46", "title": "The reference configuration is stress free", "statement": "All hyperelastic models return zero stress when the deformed metric equals the undeformed metric (and, for compressible models, unit thickness stretch).", "quantifier": "for all metrics and material parameters", "why_tests_cant": "All parameters and metrics.", "anchors": ["src/gsMaterialMatrixNonlinear.hpp:_Sij_impl"]}
{"id": "C47", "title": "Small-strain limit is the linear material", "statement": "At the reference configuration the condensed tangent of the compressible hyperelastic models equals the plane-stress linear material with the same Young's modulus and Poisson's ratio, and the incompressible tangents equal its nu=1/2 limit.", "quantifier": "for all metrics and all E, nu", "why_tests_cant": "Exact identity in all parameters.", "anchors": ["src/gsMaterialMatrixNonlinear.hpp:_Cijkl_impl", "src/gsMaterialMatrixLinear.hpp:_Cijkl"]}
{"id": "C48", "title": "Hyperelastic tangents have the elasticity symmetries", "statement": "The tangents of all analytical models have minor and major symmetries, so the 3x3 matrix filled from six entries represents the full tensor.", "quantifier": "for all symmetric metrics and parameters", "why_tests_cant": "Identity over reals.", "anchors": ["src/gsMaterialMatrixNonlinear.hpp:_Cijkl_impl", "src/gsMaterialMatrixNonlinear.hpp:_Cijkl3D_impl"]}
{"id": "C49", "title": "Analytical and generalized implementations agree (compressible)", "statement": "For the compressible neo-Hookean, extended neo-Hookean and Mooney-Rivlin materials the analytical and the generalized implementation return the same stress and the same three-dimensional tangent.", "quantifier": "for all metrics, thickness stretches and parameters", "why_tests_cant": "Identity over reals.", "anchors": ["src/gsMaterialMatrixNonlinear.hpp:_Sij_impl", "src/gsMaterialMatrixNonlinear.hpp:_Cijkl3D_impl"]}
{"id": "C50", "title": "Compressible tangents are derivatives of the stress", "statement": "For the compressible models the three-dimensional tangent equals twice the derivative of the stress in every symmetric in-plane direction and in thickness direction.", "quantifier": "for all positive definite metrics, positive thickness stretch, directions and parameters", "why_tests_cant": "Exact statement for all directions.", "anchors": ["src/gsMaterialMatrixNonlinear.hpp:_Cijkl3D_impl", "src/gsMaterialMatrixNonlinear.hpp:_Sij_impl"]}
{"id": "C51", "title": "Static condensation enforces plane stress", "statement": "The condensed tangent is the derivative of the in-plane stress along deformations for which the thickness stretch follows the condition of zero normal stress.", "quantifier": "for every differentiable stress law with non-zero thickness stiffness", "why_tests_cant": "General statement about implicit functions.", "anchors": ["src/gsMaterialMatrixNonlinear.hpp:_Cijkl_impl"]}
{"id": "C52", "title": "Thickness-stretch iteration returns a plane-stress state", "statement": "The Newton iteration for the thickness stretch returns, when it returns, a stretch whose normal-stress residual is below the tolerance, evaluated at the returned stretch; the iteration step is the exact Newton step; otherwise an error is reported; the returned stretch is positive.", "quantifier": "for every stress law, start value and iteration count", "why_tests_cant": "Arbitrary material laws and states.", "anchors": ["src/gsMaterialMatrixNonlinear.hpp:_eval3D_Compressible_C33"]}
{"id": "C53", "title": "Spectral implementation agrees with the analytical one", "statement": "In the principal frame the spectral implementation of the incompressible neo-Hookean material gives the analytical stress and tangent, the tangent coefficients are continuous at coinciding stretches, and for any energy function the condensed spectral tangent is the derivative of the condensed principal stresses.", "quantifier": "for all positive stretches and all energy functions", "why_tests_cant": "Identity over reals including the removable singularity.", "anchors": ["src/gsMaterialMatrixNonlinear.hpp:_Cabcd", "src/gsMaterialMatrixNonlinear.hpp:_dSa_db", "src/gsMaterialMatrixNonlinear.hpp:_Sa"]}
{"id": "C54", "title": "Compressible Cauchy stress", "statement": "The Cauchy stress of a compressible material is its second Piola-Kirchhoff stress divided by the Jacobian; it is non-zero whenever the stress is.", "quantifier": "for every stress and Jacobian", "why_tests_cant": "The quantity is only plotted.", "anchors": ["src/gsMaterialMatrixNonlinear.hpp:_eval3D_Compressible_CauchyStress"]}
{"id": "C55", "title": "Principal stretches at each height use the thickness stretch of that height", "statement": "For compressible materials the principal stretches reported at (point, height) use the thickness stretch computed for the same point and height.", "quantifier": "for every number of points and heights", "why_tests_cant": "Tests use a single height.", "anchors": ["src/gsMaterialMatrixNonlinear.hpp:eval3D_pstretch_impl"]}
{"id": "C56", "title": "Derivative of the tangent is evaluated at the current deformation", "statement": "The derivative of the material tangent with respect to the deformation is evaluated at the current deformation, including its shear component.", "quantifier": "for every deformation tensor", "why_tests_cant": "Without shear the error vanishes.", "anchors": ["src/gsMaterialMatrixNonlinear.hpp:dCijkl_impl"]}
{"id": "C57", "title": "Closed-form derivative of the neo-Hookean tangent", "statement": "The closed-form derivative of the incompressible neo-Hookean tangent is the exact derivative of the tangent, and it is symmetric under exchange of all index pairs.", "quantifier": "for all metrics, directions and parameters", "why_tests_cant": "Exact statement for all directions.", "anchors": ["src/gsMaterialMatrixNonlinear.hpp:dCijkl_dCmn_impl"]}
{"id": "C58", "title": "Principal stretches are the square roots of the eigenvalues of the deformation tensor", "statement": "The reported principal stretches squared are the eigenvalues of the deformation tensor, for every deformation.", "quantifier": "for every symmetric positive definite deformation tensor", "why_tests_cant": "The wrong branch is taken only on a measure-zero set (trace equal to two).", "anchors": ["src/gsMaterialMatrixBaseDim.hpp:_evalStretch"]}
{"id": "C59", "title": "Mooney-Rivlin and Ogden parameters", "statement": "The Mooney-Rivlin constants split the shear modulus (c1 + c2 = mu, c1/c2 = ratio) and a Mooney-Rivlin material with c2 = 0 behaves like the neo-Hookean material; a one-term Ogden material with exponent 2 has the neo-Hookean energy derivatives.", "quantifier": "for all parameters and stretches", "why_tests_cant": "Identity over reals.", "anchors": ["src/gsMaterialMatrixNonlinear.hpp:_Sij_impl", "src/gsMaterialMatrixNonlinear.hpp:_dPsi_da_impl"]}
{"id": "C60", "title": "Stress fields are evaluated on their own patch", "statement": "The stress field of patch p evaluates geometry and material of patch p, for every kind of stress.", "quantifier": "for every patch number and stress kind", "why_tests_cant": "Only visible on multi-patch geometries for the affected stress kinds.", "anchors": ["src/gsThinShellFunctions.hpp:eval_into"]}
{"id": "C61", "title": "Von Mises stress", "statement": "The plane von Mises stress is well defined, non-negative, zero only for zero stress, absolutely homogeneous and invariant under rotation of the frame; the flexural version evaluates the stress at the outer fibre, so that it depends on the thickness.", "quantifier": "for all stresses and angles", "why_tests_cant": "Real inputs and all rotations.", "anchors": ["src/gsThinShellFunctions.hpp:eval_into"]}
{"id": "C62", "title": "Sum of functions", "statement": "A function sum evaluates, differentiates and bounds its support as the sum of its members, for any number of functions and patches; adding the functions in another order changes nothing.", "quantifier": "for every list of functions and every patch", "why_tests_cant": "Arbitrary list lengths, including empty sums.", "anchors": ["src/gsFunctionSum.h:gsFunctionSum"]}
{"id": "C63", "title": "First variation of the unit normal", "statement": "The first-variation expression of the unit surface normal is its exact directional derivative and is orthogonal to the normal.", "quantifier": "for all independent tangent pairs and all variation directions", "why_tests_cant": "Exact derivative for all directions.", "anchors": ["src/gsThinShellUtils.h:var1_expr"]}
{"id": "C64", "title": "Second variation of the unit normal", "statement": "The second-variation expression used in the bending stiffness is the exact second derivative of the unit normal and symmetric in its two directions; the variant for two given fields returns the same value as the variant for spaces.", "quantifier": "for all independent tangent pairs and all pairs of directions", "why_tests_cant": "Exact second derivative for all directions.", "anchors": ["src/gsThinShellUtils.h:var2dot_expr", "src/gsThinShellUtils.h:var2_expr"]}
{"id": "C65", "title": "Variations of the boundary tangent and outer normal", "statement": "The first and second variation of the unit boundary tangent and of the outer normal are the exact derivatives, for every parametrisation speed.", "quantifier": "for all tangents, normals and directions", "why_tests_cant": "Unit-speed parametrisations hide normalisation errors.", "anchors": ["src/gsThinShellUtils.h:tvar1_expr", "src/gsThinShellUtils.h:ovar1_expr", "src/gsThinShellUtils.h:ovar2dot_expr"]}
{"id": "C66", "title": "Strain variations", "statement": "The first-variation expressions of membrane and bending strain are the exact derivatives of the strains in Voigt notation, and the second-variation expressions are the derivatives of the first variations, contracted with the resultants; hence the internal force is the derivative of the strain energy and the stiffness matrix is its derivative and symmetric.", "quantifier": "for all geometries, variations and resultants", "why_tests_cant": "Exact derivative statement.", "anchors": ["src/gsThinShellAssembler.hpp:assembleMatrix_impl", "src/gsThinShellAssembler.hpp:assembleVector_impl", "src/gsThinShellUtils.h:flatdot_expr", "src/gsThinShellUtils.h:flatdot2_expr"]}
{"id": "C67", "title": "The right-hand side reflects the last assembly", "statement": "After any successful assembly of a vector, rhs() returns the vector of that assembly: element loads plus the point loads that are registered at that moment; pressure assembled afterwards is visible too.", "quantifier": "for every sequence of load changes and assemblies", "why_tests_cant": "Needs a sequence that removes the point loads between two assemblies.", "anchors": ["src/gsThinShellAssembler.h:rhs", "src/gsThinShellAssembler.hpp:_applyLoads", "src/gsThinShellAssembler.hpp:assembleVector_impl"]}
{"id": "C68", "title": "The returned status describes the call that returned it", "statement": "Every assembly routine returns Success exactly when its own assembly succeeded, independent of earlier calls.", "quantifier": "for every sequence of assembly calls with arbitrary success or failure", "why_tests_cant": "Needs a failing call followed by a successful one.", "anchors": ["src/gsThinShellAssembler.hpp:assembleMass", "src/gsThinShellAssembler.hpp:assemble_impl", "src/gsThinShellAssembler.h:status"]}
{"id": "C69", "title": "Registered loads stay registered", "statement": "A pressure or foundation registered with the assembler stays active until it is replaced, in particular when the geometry, basis, boundary conditions or options are changed afterwards.", "quantifier": "for every sequence of configuration calls", "why_tests_cant": "Order-dependent; tests register loads last.", "anchors": ["src/gsThinShellAssembler.h:setPressure", "src/gsThinShellAssembler.h:setFoundation", "src/gsThinShellAssembler.h:setGeometry", "src/gsThinShellAssembler.hpp:_initialize"]}
{"id": "C70", "title": "Every interface gets exactly the coupling it was assigned", "statement": "After initInterfaces every interface of the geometry is in at least one coupling set when the default coupling is C0 or C1, interfaces assigned by the user keep their assignment and are not given the default, calling it twice is the same as calling it once, and unknown defaults are rejected. Repeated add calls accumulate.", "quantifier": "for every topology, assignment and default option", "why_tests_cant": "Arbitrary topologies and call sequences.", "anchors": ["src/gsThinShellAssembler.hpp:initInterfaces", "src/gsThinShellAssembler.hpp:addWeakC0"]}
{"id": "C71", "title": "Weak Dirichlet conditions enforce the prescribed displacement", "statement": "The penalty terms for weak Dirichlet conditions vanish exactly at the prescribed displacement, the matrix term is minus the derivative of the vector term, matrix and vector use the same penalty factor in 2D and 3D, linear and nonlinear, and the penalty adds a positive semi-definite contribution to the stiffness.", "quantifier": "for all displacements, prescribed values and penalty factors", "why_tests_cant": "Large penalty hides the sign; 2D linear tests use homogeneous conditions.", "anchors": ["src/gsThinShellAssembler.hpp:_assembleWeakBCs_impl"]}
{"id": "C72", "title": "Weak C0 coupling: matrix and vector are consistent", "statement": "The coupling matrix is minus the derivative of the coupling vector, vanishes for equal displacements on both sides, and is symmetric positive semi-definite, in 2D and 3D.", "quantifier": "for all displacements of both sides and penalty factors", "why_tests_cant": "Linear problems use only the matrix; the nonlinear 2D path is untested.", "anchors": ["src/gsThinShellAssembler.hpp:_assembleWeakIfc_impl"]}
{"id": "C73", "title": "Weak C1 coupling: matrix and vector are consistent", "statement": "The rotational coupling matrices are minus the derivative of the rotational coupling vectors (which are the gradient of the penalty energy), hence symmetric, for the out-of-plane and the in-plane part.", "quantifier": "for all normals, their first and second variations and penalty factors", "why_tests_cant": "At the undeformed state the wrong terms are multiplied by zero.", "anchors": ["src/gsThinShellAssembler.hpp:_assembleWeakIfc_impl"]}
{"id": "C74", "title": "Weak clamping: matrix and vector are consistent", "statement": "The weak clamping matrix is minus the derivative of the weak clamping vector.", "quantifier": "for all normals, boundary normals and variations", "why_tests_cant": "At the undeformed state the vector vanishes.", "anchors": ["src/gsThinShellAssembler.hpp:_assembleWeakBCs_impl"]}
{"id": "C75", "title": "Elastic foundation and pressure: matrix and vector are consistent", "statement": "The foundation contributes the restoring force -k u to the residual and k to the stiffness; the follower pressure contributes p n to the residual and minus its derivative to the stiffness; linear and nonlinear assembly agree at zero displacement.", "quantifier": "for all displacements, stiffnesses and pressures", "why_tests_cant": "Nonlinear foundation path is untested.", "anchors": ["src/gsThinShellAssembler.hpp:_assembleFoundation_impl", "src/gsThinShellAssembler.hpp:_assemblePressure_impl"]}
{"id": "C76", "title": "Solution vector and displacement field are inverse to each other", "statement": "Building the displacement field from a solution vector and extracting the solution vector from that field returns the original vector; eliminated degrees of freedom carry the Dirichlet data; the deformed geometry is the undeformed one plus the displacement.", "quantifier": "for every numbering of the degrees of freedom, Dirichlet data and solution vector", "why_tests_cant": "All numberings, including coupled degrees of freedom.", "anchors": ["src/gsThinShellAssembler.hpp:constructSolutionVector", "src/gsThinShellAssembler.hpp:constructMultiPatch", "src/gsThinShellAssembler.hpp:constructSolution"]}
{"id": "C77", "title": "updateMultiPatch updates the geometry it is given", "statement": "updateMultiPatch(v, mp) adds the displacement of v to the geometry passed in.", "quantifier": "for every geometry and solution vector", "why_tests_cant": "Tests start from the undeformed geometry, for which the result coincides.", "anchors": ["src/gsThinShellAssembler.hpp:updateMultiPatch", "src/gsThinShellAssembler.hpp:_constructSolution"]}
{"id": "C78", "title": "Boundary forces", "statement": "The boundary force over several sides is the sum of the nodal internal forces over the union of the sides' control points: the order and repetition of sides do not matter, corner points are counted once, and disjoint sides add up.", "quantifier": "for every list of sides and every nodal force vector", "why_tests_cant": "Arbitrary lists of sides.", "anchors": ["src/gsThinShellAssembler.hpp:boundaryForce_impl"]}
{"id": "C79", "title": "Point loads", "statement": "Point loads act linearly: the contribution of a list of loads is the sum of the individual ones, independent of order, and if the basis functions sum to one and no degree of freedom is eliminated, the nodal forces of a component add up to the applied value; for every discrete displacement the nodal forces do the work of the load at its point of application.", "quantifier": "for every list of point loads and basis values", "why_tests_cant": "Arbitrary lists.", "anchors": ["src/gsThinShellAssembler.hpp:_applyLoads"]}
{"id": "C80", "title": "Changing the basis changes the discretisation space", "statement": "After setBasis the assembler uses the new basis for its discretisation space, for every constructor; copies of an assembler never refer to the original's basis.", "quantifier": "for every sequence of constructor, copy, setBasis and setSpaceBasis calls", "why_tests_cant": "Depends on which constructor was used.", "anchors": ["src/gsThinShellAssembler.h:setBasis", "src/gsThinShellAssembler.hpp:gsThinShellAssembler"]}
{"id": "C81", "title": "Energy and norm queries", "statement": "The elastic energy is unchanged by rigid translations and never negative for the linear material; the deformation norm between a geometry and itself is zero; the displacement norm of a translation is its length.", "quantifier": "for all displacement fields and quadrature rules", "why_tests_cant": "Real-valued inputs; no test calls these queries with a translated geometry.", "anchors": ["src/gsThinShellAssembler.hpp:getElasticEnergy", "src/gsThinShellAssembler.hpp:deformationNorm", "src/gsThinShellAssembler.hpp:getDisplacementNorm"]}
{"id": "C82", "title": "Point masses", "statement": "A point mass registered with the assembler changes the assembled mass matrix by value times the outer product of the basis values on free degrees of freedom.", "quantifier": "for every list of point masses", "why_tests_cant": "No test registers point masses.", "anchors": ["src/gsThinShellAssembler.h:setPointMass", "src/gsThinShellAssembler.hpp:_applyMass", "src/gsThinShellAssembler.hpp:assembleMass"]}
{"id": "C83", "title": "Strain output in the local Cartesian frame", "statement": "The membrane and flexural strain outputs are the components of the membrane and bending strain tensors in the orthonormal frame of the reference surface.", "quantifier": "for all reference and deformed surfaces", "why_tests_cant": "Orthogonal parametrisations without twist hide a wrong shear factor.", "anchors": ["src/gsThinShellFunctions.hpp:eval_into", "src/gsThinShellUtils.h:cartcon_expr"]}
{"id": "C84", "title": "Stress output has the declared size", "statement": "For every kind of output the stress function returns as many rows as targetDim declares, for planar and spatial shells and for linear and nonlinear materials.", "quantifier": "for every kind, dimension and material class", "why_tests_cant": "Eigen size checks are assertions; only particular kinds are affected.", "anchors": ["src/gsThinShellFunctions.h:targetDim", "src/gsThinShellFunctions.hpp:eval_into", "src/gsMaterialMatrixNonlinear.hpp:eval3D_pstressDir"]}
{"id": "C85", "title": "Function sums as objects", "statement": "Printing a function sum lists every piece and nothing else; a copy of a function sum evaluates like the original, also after the original is destroyed.", "quantifier": "for all numbers of functions and pieces, all points", "why_tests_cant": "Dangling pointers often appear to work.", "anchors": ["src/gsFunctionSum.h:print", "src/gsFunctionSum.h:gsFunctionPieceSum"]}
{"id": "C86", "title": "Assigned couplings are enforced", "statement": "An interface assigned to (or given by default) a coupling of order C0 or C1 has its displacements coupled, by penalty or by matching degrees of freedom; an interface declared uncoupled is not coupled.", "quantifier": "for every assignment of interfaces, default coupling and continuity of the space", "why_tests_cant": "Patches with equal loads move together even if nothing couples them.", "anchors": ["src/gsThinShellAssembler.hpp:initInterfaces", "src/gsThinShellAssembler.hpp:_assembleWeakIfc_impl", "src/gsThinShellAssembler.hpp:_assembleDirichlet"]}
{"id": "C87", "title": "Interface errors measure geometric conformity", "statement": "The C0 interface error is zero exactly if the two sides coincide at all quadrature points, the G1 error exactly if their unit normals coincide; the normal, Gauss curvature and mean curvature errors do not depend on how the sides are parametrised and are zero when both sides belong to one smooth surface.", "quantifier": "for all pairs of surfaces, parameter changes and quadrature rules", "why_tests_cant": "Tests compare only patches with matching parametrisation.", "anchors": ["src/gsThinShellAssembler.hpp:interfaceErrorC0", "src/gsThinShellAssembler.hpp:interfaceErrorG1", "src/gsThinShellAssembler.hpp:interfaceErrorNormal", "src/gsThinShellAssembler.hpp:interfaceErrorGaussCurvature", "src/gsThinShellAssembler.hpp:interfaceErrorMeanCurvature"]}
{"id": "C88", "title": "In-plane test of an interface", "statement": "An interface is classified as in-plane exactly if the normals of its own two sides agree within the tolerance.", "quantifier": "for all lists of interfaces, tolerances and quadrature rules", "why_tests_cant": "With a single interface the classification is right.", "anchors": ["src/gsThinShellAssembler.hpp:_ifcTest", "src/gsThinShellAssembler.hpp:_isInPlane"]}
{"id": "C89", "title": "Mid-surface principal stretches for many points", "statement": "The principal stretches on the mid-surface (and their directions) can be evaluated at any number of points at once; the result at each point is the one obtained for that point alone.", "quantifier": "for every number of points and every material", "why_tests_cant": "The out-of-bounds read of the 1x1 matrix of heights is silent in release builds and often yields a small number.", "anchors": ["src/gsMaterialMatrixNonlinear.hpp:_pstretch_into_impl", "src/gsMaterialMatrixNonlinear.hpp:_pstretchDir_into_impl", "src/gsMaterialMatrixNonlinear.hpp:_eval3D_Compressible_C33"]}
{"id": "C90", "title": "Dual vector is the derivative of the goal (domain)", "statement": "For every goal function, component and material, the entry of the assembled dual vector that belongs to a test function is the derivative of the computed goal along that test function, when the goal is integrated over the domain.", "quantifier": "for all goals, components, quadrature rules, deformations and test functions", "why_tests_cant": "The dual is only used inside an error estimate whose exact value is not known; a wrong term gives a plausible estimate.", "anchors": ["src/gsThinShellAssemblerDWR.hpp:_assembleDual", "src/gsThinShellAssemblerDWR.hpp:computeGoal"]}
{"id": "C91", "title": "Dual vector is the derivative of the goal (boundaries)", "statement": "On boundaries, whenever the goal can be computed, the dual can be assembled and is its derivative.", "quantifier": "for all goals, components, quadrature rules, deformations and test functions", "why_tests_cant": "The variants for domain, boundaries and points are three copies of the same code; a slip in one copy needs a test for each goal, component and variant.", "anchors": ["src/gsThinShellAssemblerDWR.hpp:_assembleDual", "src/gsThinShellAssemblerDWR.hpp:computeGoal"]}
{"id": "C92", "title": "Dual vector is the derivative of the goal (points)", "statement": "On a set of points, whenever the goal can be computed, the dual can be assembled and is its derivative; goals on points use the same quantity as goals on the domain.", "quantifier": "for all goals, components, points, deformations and test functions", "why_tests_cant": "Undefined reads of a 1x1 result and transposed matrices give plausible numbers.", "anchors": ["src/gsThinShellAssemblerDWR.hpp:_assembleDual", "src/gsThinShellAssemblerDWR.hpp:computeGoal"]}
{"id": "C93", "title": "Goals do not depend on the parametrisation", "statement": "The goal is a property of the deformed surface: it does not change when the patch is parametrised differently (integrands scale with the Jacobian determinant on the domain, with the length of the tangent on boundaries and not at all at points).", "quantifier": "for all changes of coordinates, points and components", "why_tests_cant": "Tests use the unit square parametrised by itself.", "anchors": ["src/gsThinShellAssemblerDWR.hpp:computeGoal", "src/gsMaterialMatrixBaseDim.hpp:_getMetric"]}
{"id": "C94", "title": "Error estimate is the dual-weighted residual", "statement": "The error estimate is the residual of the primal problem, with all of its loads, applied to the difference of the two dual solutions; for linear problems solved on both bases it is exactly the difference of the two goals.", "quantifier": "for all meshes, quadrature rules, loads and dual fields, linear problems, shells and membranes", "why_tests_cant": "The true error is unknown; a missing load term changes the estimate only for problems with that load.", "anchors": ["src/gsThinShellAssemblerDWR.hpp:computeError_impl", "src/gsThinShellAssemblerDWR.h:computeError"]}
{"id": "C95", "title": "Element errors add up to the estimate", "statement": "The element-wise errors are as many as the elements and their sum is the total estimate.", "quantifier": "for all meshes, loads and dual fields, plain and squared", "why_tests_cant": "Refinement uses only the ranking of the element errors.", "anchors": ["src/gsThinShellAssemblerDWR.hpp:computeError_impl", "src/gsThinShellAssemblerDWR.hpp:computeErrorElements"]}
{"id": "C96", "title": "Point loads are given to the elements that contain them", "statement": "The contribution of a point load is shared equally by the elements of its own patch that contain the point; no other element error changes.", "quantifier": "for all patches, meshes, points and numbers of containing elements", "why_tests_cant": "With a single patch the distribution is right.", "anchors": ["src/gsThinShellAssemblerDWR.hpp:_applyLoadsToElWiseError"]}
{"id": "C97", "title": "Squared errors are not negative", "statement": "The squared error estimate and its element-wise values are never negative.", "quantifier": "for all meshes, loads and dual fields with non-negative weights", "why_tests_cant": "Tests have no tractions or point loads with squared errors.", "anchors": ["src/gsThinShellAssemblerDWR.hpp:computeSquaredError_impl"]}
{"id": "C98", "title": "Estimates do not depend on earlier calls", "statement": "The result of an error computation, total, element-wise or function-wise, is determined by its arguments.", "quantifier": "for all sequences of computations", "why_tests_cant": "A stale list has a plausible size and plausible values.", "anchors": ["src/gsThinShellAssemblerDWR.hpp:computeErrorDofs", "src/gsThinShellAssemblerDWR.hpp:computeError_impl"]}
{"id": "C99", "title": "Modal error estimate", "statement": "The estimate of the error of an eigenfrequency is the residual of the coarse eigenpair weighted with the difference of the duals, hence for eigenpairs of both spaces the difference of the eigenvalues times the correlation of the mode shapes; the element errors add up to it, and the norm used for the normalisation is the mass form.", "quantifier": "for all meshes, densities, moduli, mode shapes and eigenvalues", "why_tests_cant": "Reference eigenvalues agree to the order of the estimate; only exact arithmetic separates a constant offset from discretisation error.", "anchors": ["src/gsThinShellAssemblerDWR.hpp:computeErrorEig_impl", "src/gsThinShellAssemblerDWR.hpp:matrixNorm"]}
{"id": "C100", "title": "Buckling error estimate", "statement": "The estimate of the error of a buckling load is the residual of the coarse eigenpair with the linear and geometric stiffness matrices of the assembler, weighted with the difference of the duals; the norm used for the normalisation is the geometric stiffness form.", "quantifier": "for all geometries, prestress, moduli, mode shapes and eigenvalues", "why_tests_cant": "Benchmarks are flat plates with in-plane prestress, for which the wrong terms vanish.", "anchors": ["src/gsThinShellAssemblerDWR.hpp:computeErrorEig_impl", "src/gsThinShellAssemblerDWR.hpp:matrixNorm"]}
{"id": "C101", "title": "Lifetime of the error estimator", "statement": "An error estimator owns its two assemblers: every program that constructs, copies and destroys estimators deletes each assembler exactly once, and none remains when all estimators are gone.", "quantifier": "for every sequence of constructions, copies and destructions", "why_tests_cant": "Tests construct one estimator per run and end the process before or with its destructor; a double delete shows only under a memory checker and only for copied or empty objects.", "anchors": ["src/gsThinShellAssemblerDWR.h:~gsThinShellAssemblerDWR", "src/gsThinShellAssemblerDWR.h:gsThinShellAssemblerDWR"]}
{"id": "C102", "title": "Configuration and numbering of the error estimator", "statement": "After any sequence of setters the estimator and its two assemblers use the same geometry, loads and boundary conditions, and the dual vector is numbered like the matrix of the same assembler.", "quantifier": "for every sequence of setter calls, every numbering, all contributions to the dual vector", "why_tests_cant": "Only a few configurations are tested, with one patch and conditions given in the constructor; stale conditions and other numberings give plausible but wrong estimates or silent writes out of bounds.", "anchors": ["src/gsThinShellAssemblerDWR.h:updateBCs", "src/gsThinShellAssemblerDWR.h:setOptions", "src/gsThinShellAssemblerDWR.hpp:_assembleDual"]}
{"id": "C103", "title": "Dual solution and normalised errors of the error helper", "statement": "The helper's error is the change of the goal that a Newton step on the finer basis predicts minus the one on the coarser basis; its normalised errors are finite, not negative, add up to at least one and do not depend on the scale of the goal.", "quantifier": "for all systems, goals, loads, meshes and scale factors", "why_tests_cant": "The estimate has no independent reference value in a test; only an exact identity between residuals, dual and Newton step shows what it means, for all tangents and all prescribed displacements.", "anchors": ["src/gsThinShellDWRHelper.h:computeError", "src/gsThinShellDWRHelper.h:errors", "src/gsThinShellDWRHelper.h:absErrors", "src/gsThinShellDWRHelper.h:sqErrors"]}
{"id": "C104", "title": "Prescribed displacements in the linear system", "statement": "The solution of the linear system, completed with the prescribed displacements by constructDisplacement, is in equilibrium under the prescribed displacements, whatever was assembled before.", "quantifier": "for every sequence of calls, every symmetric linear problem, all boundary data", "why_tests_cant": "Tests assemble the linear system first and mostly with zero boundary data; the effect needs non-zero data and another system assembled before.", "anchors": ["src/gsThinShellAssembler.hpp:assemble_impl", "src/gsThinShellAssembler.hpp:homogenizeDirichlet", "src/gsThinShellAssembler.hpp:_assembleDirichlet", "src/gsThinShellAssembler.hpp:constructMultiPatch"]}
{"id": "C105", "title": "Sizes of the systems follow the continuity option", "statement": "Whenever a matrix or vector is assembled, it has as many rows as there are free functions with the continuity in the options, and all entries lie inside it.", "quantifier": "for every sequence of option changes and assembly calls and every number of functions per continuity", "why_tests_cant": "A write outside a matrix is silent in release builds; the orders of calls that cause it are not in any test.", "anchors": ["src/gsThinShellAssembler.hpp:_getOptions", "src/gsThinShellAssembler.hpp:assembleMatrix_impl", "src/gsThinShellAssembler.hpp:assembleVector_impl", "src/gsThinShellAssembler.hpp:assembleMass"]}
{"id": "C106", "title": "Internal forces are objective and in equilibrium", "statement": "Rotating the deformed shell rotates the internal forces and the tangent stiffness; the tangent applied to an infinitesimal rotation turns the internal forces; the internal forces on all control points have neither a resultant nor a moment.", "quantifier": "for all deformed surfaces, stress resultants, materials that depend on the strains, bases with partition of unity, quadrature rules and rotations", "why_tests_cant": "Balance of moments holds to rounding only for the exact second variations; tests of single load cases do not separate a wrong stress stiffness from slow convergence.", "anchors": ["src/gsThinShellAssembler.hpp:assembleVector_impl", "src/gsThinShellAssembler.hpp:assembleMatrix_impl", "src/gsThinShellUtils.h:var2deriv2dot_expr"]}
{"id": "C107", "title": "Mixed-integration-point stiffness", "statement": "The matrix assembled from the current and the previous state uses the moduli of the current state and the resultants of the previous state plus their first derivative along the update; for a zero update it is the standard tangent.", "quantifier": "for all materials, states, updates and fields", "why_tests_cant": "The matrix only influences the convergence of the iteration, not the solution; the linear material used in the tests has constant moduli.", "anchors": ["src/gsThinShellAssembler.hpp:assembleMatrix_impl"]}
{"id": "C108", "title": "Mass matrix", "statement": "The mass matrix, consistent or lumped, is symmetric, gives the kinetic energy of every velocity field or at least preserves the total mass, and does not couple the components.", "quantifier": "for all bases, densities, quadrature rules and velocities", "why_tests_cant": "Eigenfrequencies are compared for the consistent matrix only.", "anchors": ["src/gsThinShellAssembler.hpp:assembleMass"]}
{"id": "C109", "title": "Assembled loads have the resultants of the given loads", "statement": "The rows of a body force, a traction and a pressure add up to the force they exert on the surface, and those of dead loads have its moment.", "quantifier": "for all bases with partition of unity, quadrature rules, loads and deformed surfaces", "why_tests_cant": "Pressure is tested with small area changes or on flat plates.", "anchors": ["src/gsThinShellAssembler.hpp:_assembleNeumann_impl", "src/gsThinShellAssembler.hpp:_assemblePressure_impl", "src/gsThinShellAssembler.hpp:assembleVector_impl"]}
{"id": "C110", "title": "Principal values at one of several points", "statement": "The principal stresses and strains returned for a point, and the tension field found from them, do not depend on the other points of the same call.", "quantifier": "for all numbers of points and heights, bases and tensors", "why_tests_cant": "Tests use flat or uniformly parametrised geometries or one point per call, where all metrics agree.", "anchors": ["src/gsMaterialMatrixLinear.hpp:eval3D_pstress", "src/gsMaterialMatrixNonlinear.hpp:eval3D_pstress", "src/gsMaterialMatrixBaseDim.hpp:eval3D_pstrain", "src/gsMaterialMatrixLinear.hpp:eval3D_CauchyPStress"]}
{"id": "C111", "title": "Principal stresses and strains", "statement": "The evaluation of principal stresses and strains never leaves its result arrays, returns the principal values of the tensor in ascending order with tangential orthonormal directions, the principal Cauchy stresses are those of the Cauchy stress tensor, and principal strains and stretches of a point correspond.", "quantifier": "for all bases, tensors and correct eigenvalue solvers", "why_tests_cant": "Repeated and vanishing principal values and finite strains combined with Cauchy principal stresses are not in the tests.", "anchors": ["src/gsMaterialMatrixBaseDim.hpp:_evalPStress", "src/gsMaterialMatrixBaseDim.hpp:_evalPStrain", "src/gsMaterialMatrixLinear.hpp:eval3D_CauchyPStress"]}
{"id": "C112", "title": "Outputs of the tension-field material belong to one state", "statement": "Stress, strain, principal stresses, principal strains and principal Cauchy stresses returned for a point by the tension-field material describe the same modified state.", "quantifier": "for all states, multipliers, angles, stresses and strains", "why_tests_cant": "Only the stress enters the assembled equations, the other outputs are plotted.", "anchors": ["src/gsMaterialMatrixTFT.hpp:eval3D_pstress", "src/gsMaterialMatrixTFT.hpp:eval3D_pstrain", "src/gsMaterialMatrixTFT.hpp:eval3D_strain", "src/gsMaterialMatrixTFT.h:eval3D_CauchyPStress"]}
{"id": "C113", "title": "Evaluator outputs have the declared size or are refused", "statement": "For every material (linear, nonlinear, laminate, wrapped for tension fields), every output kind, every number of points and heights, the pointwise evaluator returns the declared number of rows and one column per point and height, or refuses with an error.", "quantifier": "for every material, output kind, number of points and heights", "why_tests_cant": "There are 4 materials times 41 output kinds; a size error is invisible in release builds and most combinations are never evaluated by a test.", "anchors": ["src/gsMaterialMatrixEval.h:targetDim_impl", "src/gsMaterialMatrixEval.hpp:eval_into_impl", "src/gsMaterialMatrixBaseDim.hpp:eval3D_pstrain", "src/gsMaterialMatrixComposite.hpp:thickness_into"]}
{"id": "C114", "title": "The explicit tension field belongs to the registered geometry", "statement": "With the option Explicit of the tension-field material on, the tension field is the one of the geometry registered by updateDeformed at the points asked for, and everything else is evaluated on the geometry registered by setDeformed, whatever was called in between; with the option off both use the latter.", "quantifier": "for all sequences of calls (registering geometries, evaluations, tension-field queries, failing or not), all geometries and points", "why_tests_cant": "The wrapped material is shared and its geometry exchanged during the query; the outcome depends on the history of calls and on failures in between, which no finite set of call sequences covers.", "anchors": ["src/gsMaterialMatrixTFT.hpp:_compute_TF", "src/gsMaterialMatrixTFT.h:updateDeformed", "src/gsMaterialMatrixBaseDim.hpp:_computePoints"]}
{"id": "C115", "title": "The thickness stretch of the deformation output is that of the material", "statement": "The thickness entry of the deformation tensor output is the one of the plane-stress state of the material: it preserves the volume for incompressible materials, makes the transverse normal stress vanish for the linear and the compressible materials, and agrees with the principal stretches and the volume ratio of the Cauchy stress.", "quantifier": "for all regular reference and deformed metrics, moduli, and eigenvalue solvers meeting their contract", "why_tests_cant": "Agreement of several outputs of one object over a continuum of deformations; near the reference state all versions agree.", "anchors": ["src/gsMaterialMatrixBaseDim.hpp:eval3D_deformation", "src/gsMaterialMatrixBaseDim.hpp:eval3D_pstretch", "src/gsMaterialMatrixNonlinear.hpp:eval3D_pstretch_impl", "src/gsMaterialMatrixLinear.hpp:eval3D_detF"]}
{"id": "C116", "title": "Wrapping a taut material leaves its section quantities unchanged", "statement": "Where the tension field is taut, membrane force, bending moment, the four stiffnesses and the pointwise stresses of the tension-field material are those of the wrapped material; the membrane force of a wrapped linear material depends on the membrane strain only.", "quantifier": "for all thicknesses, deformations, moduli, output kinds and heights at which the state is taut", "why_tests_cant": "The wrapper evaluates at two heights and integrates by a closed form, the wrapped material at one height or by quadrature; the results are equal for flat membranes, the only ones tested.", "anchors": ["src/gsMaterialMatrixTFT.h:isVecIntegrated", "src/gsMaterialMatrixTFT.hpp:eval3D_stress", "src/gsMaterialMatrixIntegrate.hpp:multiplyLinZ_into"]}
{"id": "C117", "title": "Penalty factors measure the stiffness in Cartesian coordinates", "statement": "The stiffness in the penalty factors of the weak boundary and interface conditions is the membrane (bending) stiffness in the local Cartesian frame, so the factor is positive and does not depend on the parametrisation of the same surface.", "quantifier": "for all regular parametrisations and positive definite stiffnesses", "why_tests_cant": "For orthogonal coordinate lines, the ones of the examples, the two changes of basis are diagonal and their order does not matter; the claim ranges over all oblique parametrisations.", "anchors": ["src/gsThinShellAssembler.hpp:mmAcart", "src/gsThinShellUtils.h:cartcov_expr", "src/gsThinShellUtils.h:cartconinv_expr"]}
{"id": "C118", "title": "Matrices of the expressions belong to the numbering of the basis functions", "statement": "The matrices that the expressions for variations, second derivatives and their products compute on a discrete space have, at the number of each vector-valued basis function (or pair of functions), the value for that function, with every entry written and no access outside.", "quantifier": "for every number of active functions, all values of the functions and geometries", "why_tests_cant": "The offsets d*n+j, d*(3n+1)+3i mix components and functions; a wrong offset can agree for few functions, and reading an indeterminate entry may go unnoticed.", "anchors": ["src/gsThinShellUtils.h:var1_expr", "src/gsThinShellUtils.h:deriv2_expr", "src/gsThinShellUtils.h:flatdot2_expr", "src/gsThinShellUtils.h:var2deriv2dot_expr"]}
{"id": "C119", "title": "Principal membrane forces and moments are principal values of the section tensors", "statement": "The two integrated principal stresses returned for a section (outputs PStressN, PStressM) are the principal values of the membrane force tensor and of the moment tensor returned for the same section (VectorN, VectorM); their sum is the trace and the interval they span contains the principal values.", "quantifier": "For every quadrature rule through the thickness, every thickness, every metric and every distribution of the stress over the height.", "why_tests_cant": "Principal values are not linear in the stress: uniaxial membrane tests, in which the stress keeps its directions, give the right values; a test in bending would have to compare with an independently computed tensor.", "anchors": ["src/gsMaterialMatrixIntegrate.hpp:integrateZ_into", "src/gsMaterialMatrixIntegrate.h:getMoment", "src/gsMaterialMatrixIntegrate.hpp:PStressM"]}
{"id": "C120", "title": "Storage of the derivative of the tangent", "statement": "The 3x3 matrix that the wrinkled tangent of the tension-field material takes out of the 27 numbers returned by eval3D_dmatrix for a strain direction is the derivative of the material tangent with respect to this Voigt strain, entry by entry, for the closed form and for the numerical derivative.", "quantifier": "For every deformation, strain direction and entry; for every material whose tangent is the symmetric derivative of a smooth stress.", "why_tests_cant": "The writer stores derivatives of one entry next to each other and the reader takes them as entries of one derivative; only the symmetry of third derivatives makes the two agree, which no test at single states reveals, and tests without shear do not see where the numerical derivative is taken.", "anchors": ["src/gsMaterialMatrixNonlinear.hpp:dCijkl_impl", "src/gsMaterialMatrixTFT.hpp:dC.reshape(9,3)", "src/gsMaterialMatrixTFT.hpp:dCN1"]}
{"id": "C121", "title": "Derivative of the tangent at several points", "statement": "The derivative of the material tangent requested for a set of points and heights returns, for every point and every height, the derivative at that point and height, like the stress and the tangent do.", "quantifier": "For every hyperelastic material, every number of points and every number of heights.", "why_tests_cant": "The only caller in the library asks for one point at a time, for which the call works; with more points the numerical derivative overwrites the data of the remaining points with those of the current one.", "anchors": ["src/gsMaterialMatrixNonlinear.hpp:eval3D_dmatrix", "src/gsMaterialMatrixNonlinear.hpp:dCijkl_impl", "src/gsMaterialMatrixBaseDim.hpp:_computePoints"]}
{"id": "C122", "title": "Stress and the unit of length", "statement": "The stress returned by a hyperelastic material for a geometry and its deformation is the same stress when all lengths are given in another unit: the contravariant components are divided by the square of the factor.", "quantifier": "For every hyperelastic material, every undeformed and deformed metric and every factor between the units.", "why_tests_cant": "Tests use unit squares, for which the thickness entry of the compared matrices and the in-plane entries are of the same size; only for large parametrised lengths is the tolerance of the zero-stress shortcut no longer relative to the in-plane entries.", "anchors": ["src/gsMaterialMatrixNonlinear.hpp:gsAllCloseRelativeToMax", "src/gsMaterialMatrixNonlinear.hpp:_eval3D_Incompressible_stress", "src/gsMaterialMatrixNonlinear.hpp:_eval3D_Compressible_stress"]}
{"id": "C123", "title": "Tangent and stored energy of a hyperelastic shell", "statement": "The tangent matrix assembled for an integrated hyperelastic shell is minus the derivative of the assembled internal force, and the internal force is minus the derivative of the stored energy, both evaluated with the same quadrature through the thickness.", "quantifier": "For every neo-Hookean or Mooney-Rivlin material, every undeformed and deformed surface with non-degenerate metrics at the heights of the rule, every pair of fields and every quadrature rule.", "why_tests_cant": "A Newton iteration with a slightly wrong tangent still converges on the thin shells used in tests, only more slowly; the missing term is of second order in thickness times curvature and vanishes for every flat configuration.", "anchors": ["src/gsThinShellAssembler.hpp:assembleMatrix_impl", "src/gsThinShellAssembler.hpp:assembleVector_impl", "src/gsMaterialMatrixBaseDim.hpp:_getMetricDeformed", "src/gsMaterialMatrixNonlinear.hpp:_eval3D_Incompressible_stress", "src/gsMaterialMatrixIntegrate.hpp:integrateZ_into"]}
{"id": "C124", "title": "Hyperelastic shells do not depend on the parametrisation", "statement": "Stress, tangent and thickness stretch of the hyperelastic materials are the same tensors in every parametrisation of the mid-surface, and the integrands of the internal force and of the tangent matrix are the same numbers.", "quantifier": "For every regular change of parameters (with orientation preserved for the integrated quantities), every undeformed and deformed metric or surface, every field and every rule through the thickness.", "why_tests_cant": "Tests use one parametrisation per geometry, and mostly arc-length-like ones; a component formula mixing up co- and contravariant components gives the right numbers there.", "anchors": ["src/gsMaterialMatrixNonlinear.hpp:_Sij", "src/gsMaterialMatrixNonlinear.hpp:_Cijkl", "src/gsMaterialMatrixNonlinear.hpp:_eval3D_Compressible_C33", "src/gsMaterialMatrixNonlinear.hpp:gsAllCloseRelativeToMax", "src/gsThinShellAssembler.hpp:assembleMatrix_impl"]}
{"id": "C125", "title": "A planar problem is the flat sheet in space", "statement": "The two-dimensional version of the code gives, for every planar geometry and every motion in the plane, the metrics, bases, resultants, moduli, residual and tangent of the three-dimensional version for the same sheet lying in the plane z=0, including the loads of an elastic foundation and of a pressure.", "quantifier": "all regular planar Jacobians, second derivatives, fields, hyperelastic materials, rules, thicknesses, Young's moduli, Poisson ratios, foundation stiffnesses", "why_tests_cant": "The two versions are separate template specialisations; comparing them needs every parametrisation of the sheet, and the unit-square examples have an identity metric, for which wrong and right contravariant metric coincide.", "anchors": ["src/gsMaterialMatrixBaseDim.hpp:_getMetricUndeformed_impl", "src/gsThinShellAssembler.hpp:assembleMatrix_impl", "src/gsThinShellAssembler.hpp:_assembleFoundation_impl", "src/gsMaterialMatrixLinear.hpp:_Cijkl"]}
{"id": "C126", "title": "Hyperelastic tangents are positive definite", "statement": "The matrix returned by the hyperelastic materials is positive definite in every admissible deformation, so the material part of the stiffness is not negative and tension field theory and the direct solvers can rely on it.", "quantifier": "For every pair of positive definite undeformed and deformed metrics, every thickness stretch with zero thickness stress, all material constants.", "why_tests_cant": "Tests evaluate the tangent at a few states and compare with derivatives, which says nothing on definiteness; a loss of definiteness at moderate stretch shows only as stalled iterations in a large run.", "anchors": ["src/gsMaterialMatrixNonlinear.hpp:_Cijkl", "src/gsMaterialMatrixNonlinear.hpp:_Cijkl_impl", "src/gsMaterialMatrixNonlinear.hpp:_Cijkl3D", "src/gsThinShellAssembler.hpp:assembleMatrix_impl"]}
{"id": "C127", "title": "The plane-stress thickness stretch exists, is unique and is found", "statement": "For every deformation of the mid-surface there is exactly one positive thickness stretch with zero normal stress, and the iteration of the compressible materials returns it.", "quantifier": "For every pair of positive definite undeformed and deformed metrics and all material constants with positive shear and bulk moduli.", "why_tests_cant": "Tests run the iteration at mild tension states, where the volume-preserving start value is close; strongly compressed states, where the iteration leaves the positive half-line, do not occur in them.", "anchors": ["src/gsMaterialMatrixNonlinear.hpp:_eval3D_Compressible_C33", "src/gsMaterialMatrixNonlinear.hpp:_Sij", "src/gsMaterialMatrixNonlinear.hpp:_Cijkl3D"]}
{"id": "C128", "title": "The full solution vector and the L2 projection hold what they promise", "statement": "fullSolutionVector(v) lists the coefficients of the displacement field constructed from v, patch by patch, component by component, function by function, with the prescribed values at the fixed functions, whatever was called before; its length is the number of functions in all components. projectL2 returns as many coefficients as there are free functions and projectL2_into returns the geometry plus the projected field.", "quantifier": "for all complete numberings, numbers of components, prescribed values, solution vectors, sequences of calls and functions", "why_tests_cant": "The order and the source of the prescribed values matter for every numbering and every history of calls; a test compares one vector. That the projection does nothing shows only where it is called.", "anchors": ["src/gsThinShellAssembler.hpp:fullSolutionVector", "src/gsThinShellAssembler.hpp:projectL2_into", "src/gsThinShellAssembler.hpp:extractFull"]}
{"id": "C129", "title": "The principal stretches and stresses of the assembler belong to their points", "statement": "Column k of computePrincipalStresses(u, deformed, z) holds the principal values of the stress at point k, irrespective of the other points and of earlier evaluations, and the columns of computePrincipalStretches and computePrincipalStresses have three and two rows, for every patch and every material class.", "quantifier": "for all lists of points, bases, stresses, exact eigenvalue solvers, previously stored bases and material classes", "why_tests_cant": "A wrong metric at one of many points changes the values only on curved or distorted geometry, and unit tests use one patch.", "anchors": ["src/gsThinShellAssembler.hpp:computePrincipalStresses", "src/gsThinShellAssembler.hpp:computePrincipalStretches", "src/gsMaterialMatrixBaseDim.hpp:_evalPStress"]}
{"id": "C130", "title": "Uniaxial tension has the closed-form solution", "statement": "A hyperelastic square stretched in one direction and free to contract has zero lateral stress at exactly one lateral stretch (and, for compressible materials, one thickness stretch), namely the one of the closed-form solution, and its axial Cauchy stress is the closed-form stress, for neo-Hookean, Mooney-Rivlin and Ogden materials with any number of terms, analytical or spectral. In tension the volume of a compressible material does not decrease. The volume ratios written as numbers in the unit test are those of the materials.", "quantifier": "all positive stretches, all material parameters with positive shear and bulk moduli, all Ogden terms with positive products", "why_tests_cant": "The unit test checks the lateral stretch for the stretch 2 and one set of parameters per material, and it computes the stress but does not compare it.", "anchors": ["src/gsMaterialMatrixNonlinear.hpp:_Sij_impl", "unittests/gsThinShellAssembler_test.cpp:UAT_analytical", "src/gsMaterialMatrixBaseDim.hpp:_evalStretch"]}
{"id": "C131", "title": "The linear system is symmetric, semi-definite and solvable exactly without strain-free modes", "statement": "The matrix assembled for the linear problem is symmetric and positive semi-definite, its form is the strain energy, its null vectors are exactly the displacements without linearised membrane and bending strains at the quadrature points (rigid motions among them), and the equations of the free degrees of freedom have exactly one solution for every load if and only if no non-zero displacement of them is strain-free.", "quantifier": "all surfaces, bases, quadrature rules, coefficient vectors, sets of free degrees of freedom, loads, linear materials, laminates and materials integrated through the thickness", "why_tests_cant": "tests solve a few well-supported problems; they cannot show that every null vector of every system is a strain-free displacement", "anchors": ["src/gsThinShellAssembler.hpp:m_N_der * m_Em_der.tr()", "src/gsThinShellAssembler.hpp:assemble_impl", "src/gsMaterialMatrixIntegrate.hpp:multiplyZ_into", "src/gsMaterialMatrixComposite.hpp:_cart2cov"]}
{"id": "C132", "title": "Point loads and threads", "statement": "The distribution of point loads over the elements gives the same element errors with any number of threads and any order in which they reach their critical sections as the serial program; every element is looked at by exactly one thread.", "quantifier": "for all meshes, loads, dual fields, numbers of threads and schedules", "why_tests_cant": "Schedules are not under the control of a test, and one thread is the usual setting of the test machines.", "anchors": ["src/gsThinShellAssemblerDWR.hpp:_applyLoadsToElWiseError"]}
{"id": "C133", "title": "Pressure of an inflated balloon", "statement": "A patch of a sphere of radius R and thickness t, uniformly stretched by lam, is in equilibrium under the assembled internal forces and the assembled pressure (residual zero for every virtual displacement) exactly when the pressure per deformed area is the closed formula of the unit test: 2 t/R sum mu_i (lam^(alpha_i-3) - lam^(-2 alpha_i-3)) for the Ogden material, with its neo-Hookean and Mooney-Rivlin cases. The ratio of areas used by the test is lam^2.", "quantifier": "for all radii, thicknesses, stretches, material parameters, parametrisations of any part of the sphere and virtual displacements; for neo-Hookean also any thickness rule", "why_tests_cant": "The unit test compares one radius, one pressure and a tolerance of 1e-3 with one parametrisation; the equilibrium for all virtual displacements and the exact form of the error with several thickness points are not visible in it.", "anchors": ["src/gsThinShellAssembler.hpp:_assemblePressure_impl", "src/gsMaterialMatrixIntegrate.hpp:integrateZ_into", "unittests/gsThinShellAssembler_test.cpp:balloon_analytical"]}
{"id": "C134", "title": "Vibration and bending of rectangular plates", "statement": "On a flat rectangular plate with simply supported edges the weak eigenvalue problem assembled from the linear stiffness and mass forms has exactly Navier's frequencies for displacements with a deflection, and Navier's sine modes satisfy it for every test displacement; for the linear isotropic material and for laminates of isotropic layers of one material at any angles these are the frequencies of the unit test. Under a sinusoidal load the deflection is Navier's and unique.", "quantifier": "for all side lengths, moduli without bending-twisting and membrane-bending coupling, masses, numbers of half waves, eigenvalues and smooth test displacements", "why_tests_cant": "The unit test compares frequencies of one discretised plate with a tolerance and layers that all have the angle 0 (integer division); it cannot see that no other frequencies occur nor what holds for other angles.", "anchors": ["src/gsThinShellAssembler.hpp:assembleMass", "src/gsMaterialMatrixComposite.hpp:eval3D_matrix", "unittests/gsThinShellAssembler_test.cpp:Modal_analytical"]}
{"id": "C135", "title": "Buckling of rectangular plates", "statement": "The tangent matrix of a rectangular plate that is uniformly stretched in its directions, on an elastic foundation, lets a deflection go without resistance exactly if the sum of bending stiffness, in-plane forces and foundation vanishes for some Navier mode; Navier's modes are its eigenmodes. For the linear material these are the classical loads; an equally compressed plate buckles exactly at 1 - lam^2 = t^2 (alpha^2 + beta^2)/(6 (1 + nu)), and not before the first of them. For incompressible neo-Hookean and Mooney-Rivlin materials the condition is explicit and, for equal compression, the same for all of them, for every thickness rule.", "quantifier": "for all side lengths, stretches, thicknesses, material parameters, foundations, numbers of half waves and smooth test displacements", "why_tests_cant": "A test can find a singular tangent for one load and mesh; it cannot show that the tangent is regular for every other load, nor that no other deflection is free.", "anchors": ["src/gsThinShellAssembler.hpp:assembleMatrix_impl", "src/gsThinShellAssembler.hpp:_assembleFoundation_impl", "src/gsMaterialMatrixIntegrate.hpp:integrateZ_into"]}
{"id": "C136", "title": "Bounds for discretised plates", "statement": "For a pinned rectangular plate of the linear isotropic material, with any conforming basis: the assembled stiffness matrix is positive definite, so every load has exactly one solution; this solution has the smallest error in energy of all displacements of the basis and does no more work than the exact one; every eigenvalue of the stiffness and mass matrices is at least the smaller of Navier's first frequency squared and G (pi^2/a^2+pi^2/b^2)/rho. Below this in-plane bound the exact eigenvalues of all displacements are exactly Navier's, which covers the ten values compared by the unit test. Bending depends on Poisson's ratio only through the bending stiffness.", "quantifier": "for all side lengths, Young's moduli, Poisson's ratios between -1 and 1/2, thicknesses, densities, loads, numbers and choices of twice differentiable basis functions", "why_tests_cant": "A test can refine one mesh and watch the error; it cannot show that no basis gives too low a frequency, nor that no in-plane mode slips between the compared ones.", "anchors": ["src/gsThinShellAssembler.hpp:assembleMass", "src/gsThinShellAssembler.hpp:assemble()", "unittests/gsThinShellAssembler_test.cpp:Modal_numerical"]}
{"id": "C137", "title": "Pipes and rolled strips", "statement": "A circular pipe is in equilibrium, for all smooth virtual displacements that keep its ends and its seam together, exactly at the pressure of its hoop force and moment; for the linear material this pressure is t E/(1-nu^2) ((r^2-R^2) r/(2R^4) + nu (ly^2-1) r/(2R^2) + t^2 (r-R)/(12R^4)) per undeformed area, every inner pressure has exactly one radius r >= R, and the linear problem gives its linearisation. Free vibrations with n waves around the pipe reduce to a 2x2 problem whose lowest eigenvalue lies between the frequency of an inextensional ring and this frequency over 1 + t^2/(12R^2) ((n^2+1)^2+4n^2)/(n^2+1). A flat strip rolled to the radius rho is in equilibrium without end forces exactly if its stretch satisfies lam^2 (1+t^2/(6 rho^2)) = 1, and then only end moments E t^3/(12(1-nu^2)) lam^2/rho are needed.", "quantifier": "All radii, thicknesses, E > 0, -1 < nu < 1/2, stretches, pressures, wave numbers n >= 1, all parts of a pipe and all smooth virtual displacements with the stated edge conditions", "why_tests_cant": "Tests run one geometry on one mesh and compare with a tolerance; the equivalences are for all radii and for infinitely many test functions at once.", "anchors": ["src/gsThinShellAssembler.hpp:assembleVector", "src/gsThinShellAssembler.hpp:assembleMass", "src/gsMaterialMatrixLinear.hpp:_Sij"]}
{"id": "C138", "title": "Evaluations of one material in several threads do not disturb each other", "statement": "The expressions of an assembly are evaluated by several OpenMP threads that share one material object; the data of the points are kept per thread, the registered geometries are shared and there is no lock. With the option `Explicit` of the tension-field wrapper off, no two accesses conflict: in every interleaving each thread computes exactly what it computes alone, namely the values at the points of its own calls for the registered deformed geometry, whatever the other threads evaluate and whatever was computed before, and the registered geometry does not change. With the option on the same should hold, each tension field being that of the geometry of `updateDeformed` and everything else that of the deformed geometry.", "quantifier": "For all numbers of threads, all sequences of calls per thread, all interleavings of their accesses, all geometries, point functions and earlier data.", "why_tests_cant": "The outcome depends on the order in which threads happen to run; a test samples a few schedules, and the unit tests run no tension-field assembly with the option and several threads.", "anchors": ["src/gsMaterialMatrixBaseDim.h:gsThreaded", "src/gsMaterialMatrixBaseDim.hpp:_computePoints", "src/gsMaterialMatrixTFT.hpp:_compute_TF", "src/gsMaterialMatrixTFT.h:setDeformed"]}
{"id": "C139", "title": "The nonlinear solution loop finds an equilibrium or says that it did not", "statement": "The loop of the tutorial and of the examples returns a solution together with its residual after at most 100 iterations, ends with an error if an assembly fails, leaves a linear problem at the linear solution after one iteration, and never runs into undefined behaviour. A solution accepted by the test of the update is in balance up to the square of the tolerance if the matrices are minus the derivative of the residual (up to an error of the tangent), and from a linear solution near an equilibrium with invertible tangents the loop stops by itself near this equilibrium. A solution that was not found should be reported, and an accepted solution should be in balance whatever the units.", "quantifier": "For all systems in all normed spaces, all solvers that solve, all tangents with any error bound and Lipschitz constant.", "why_tests_cant": "Tests run problems on which the method converges; whether a failure is reported shows only on one that does not converge.", "anchors": ["tutorials/nonlinear_shell.cpp:Maximum iterations reached", "examples/example_shell3D.cpp:updateVector.norm() < 1e-6", "examples/example_shell2D.cpp:Residual_t", "examples/example_parametric_panel.cpp:Jacobian_t"]}
{"id": "C140", "title": "Reference solutions of the example programs", "statement": "The example programs compare the error estimates with reference solutions. On the unit square and for a linear material: the clamped static example's deflection is the only clamped displacement in equilibrium with the example's load. The reference of the modal example with the index i is the eigenvalue with that index among all deflections of the simply supported square, for i up to 68 and up to a relative error of 2e-10. In the buckling example with tension in both directions, the linear problem has the uniform strain eps = load (1-nu)/(E t), the eigenvalues of the deflections are exactly D pi^2 (m^2+n^2) / (load (1 + eps/2)), the analytical reference is that without the factor 1 + eps/2, and the ten numerical references are these values for the load 1. In the example with compression in one direction the linear problem is solved by uniform strains. Not so: references from index 69 on belong to higher modes, indices outside of the tables (81 and 10 entries) are undefined behaviour, the numerical references are wrong for the default load, without Spectra the eigenvalues are the reciprocals, and in the second buckling example the matrix is singular and the references have the wrong sign.", "quantifier": "for all elastic constants, thicknesses, densities, loads and amplitudes, all rules through the thickness, all test functions and all indices", "why_tests_cant": "The examples print the error against these values, so that a wrong reference shows as a wrong efficiency of the error estimator and not as a failure; nobody runs them with all indices, and the completeness of the spectrum concerns infinitely many functions.", "anchors": ["examples/example_shell3D_DWR.cpp:exact", "examples/example_shell3D_DWR_modal.cpp:omegas", "examples/example_shell3D_DWR_modal.cpp:lambda_an", "examples/example_shell3D_DWR_buckling.cpp:gammas_an", "examples/example_shell3D_DWR_buckling.cpp:gammas_num", "examples/example_shell3D_DWR_buckling.cpp:Kdiff"]}
{"id": "C141", "title": "The tension field is the state of a membrane that cannot bear compression", "statement": "For every positive definite symmetric stiffness there is exactly one pair of a stress without compression and a wrinkling strain that lengthens, does no work on the stress and changes it by the stiffness; it has the least energy, and its stress is the derivative of that energy. The tension-field material returns this stress at taut, wrinkled and slack points for the criterion in use, whichever admissible angle the search finds, and independently of the parametrisation of the surface; an accepted angle is admissible.", "quantifier": "for every positive definite symmetric stiffness, every strain, every metric, every pair of coordinate systems and every angle", "why_tests_cant": "Existence, uniqueness, the minimum over all wrinkling strains and the independence of coordinates quantify over infinitely many states; the examples only run one criterion on a few membranes.", "anchors": ["src/gsMaterialMatrixTFT.hpp:_compute_S", "src/gsMaterialMatrixTFT.hpp:_check_theta_full", "src/gsMaterialMatrixBaseDim.hpp:_tensionField", "src/gsMaterialMatrixTFT.h:SlackMultiplier"]}
{"id": "C142", "title": "The search for the wrinkling angle finds the angle of the relaxed state", "statement": "At the wrinkling angle of the state without compression the searched function changes from negative to positive, so it is a zero of the kind that Brent's method of the code finds; the search on 50 intervals therefore has this angle among its candidates up to the tolerance, and returns an accepted candidate.", "quantifier": "for every positive definite symmetric stiffness, every stress, every angle of the state, every machine epsilon and every Newton method", "why_tests_cant": "The search depends on the position of the zeros between the sample points; tests see a few states and do not compare with an independent minimiser.", "anchors": ["src/gsMaterialMatrixTFT.hpp:eval_theta", "src/gsMaterialMatrixTFT.hpp:_check_theta_full", "src/gsMaterialMatrixTFT.hpp:findRootBrent"]}
{"id": "C143", "title": "The first interval of the wrinkling angle contains the angle", "statement": "For principal stresses of opposite sign the interval computed from stress and strain contains the wrinkling angle, the searched function changes sign in it, and Brent's method finds the angle there.", "quantifier": "for every linear isotropic material with non-negative Poisson's ratio and every strain, in orthonormal coordinates", "why_tests_cant": "A wrong interval is hidden by the fallback search; tests see only the final angle at a few states.", "anchors": ["src/gsMaterialMatrixTFT.hpp:_theta_interval", "src/gsMaterialMatrixTFT.hpp:eval_theta"]}
{"id": "C144", "title": "The patch test: a uniformly stretched sheet is in equilibrium", "statement": "For a flat sheet under an affine deformation the residual balances the tractions derived from the energy of the material on the four sides, so it vanishes for displacements fixed at the boundary.", "quantifier": "for every regular parametrisation of the plane by a rectangle, every affine deformation, every smooth test function, the linear, incompressible and compressible materials, shell and planar code", "why_tests_cant": "Tests use a few distorted meshes and a tolerance; wrong metrics vanish on the square.", "anchors": ["src/gsThinShellAssembler.hpp:_assembleNeumann", "src/gsThinShellAssembler.hpp:assembleVector", "src/gsMaterialMatrixBaseDim.hpp:_computeMetricUndeformed", "src/gsMaterialMatrixNonlinear.hpp:_eval3D_Incompressible_stress"]}
{"id": "C145", "title": "The boundary value problem of the uniaxial tension test", "statement": "For the unit square with no displacement along x on the left side, a prescribed displacement along x on the right side and no displacement along y on the lower side, the planar residual of a uniformly stretched state vanishes for all admissible test functions exactly if the lateral stretch is the closed-form one of the test, and the stress that the test computes from the boundary force of the right side is then the closed-form stress.", "quantifier": "for every neo-Hookean and Mooney-Rivlin material, thickness, axial stretch of at least 1+1e-11, lateral stretch, rule through the thickness, and basis", "why_tests_cant": "The test runs one stretch, one mesh and compares the lateral stretch only, for the neo-Hookean material.", "anchors": ["src/gsThinShellAssembler.hpp:boundaryForce_impl", "src/gsThinShellAssembler.hpp:assembleVector", "src/gsMaterialMatrixNonlinear.hpp:_eval3D_Incompressible_stress", "unittests/gsThinShellAssembler_test.cpp:UAT_numerical", "unittests/gsThinShellAssembler_test.cpp:UAT_analytical"]}
{"id": "C146", "title": "The boundary force is the force on the side", "statement": "In a deformed state that is balanced by tractions on the sides of a patch, the boundary force of a side is minus the resultant of the tractions on this side.", "quantifier": "for every geometry, balanced state, material, and basis whose functions of the side add up to one there", "why_tests_cant": "All states, meshes and tractions; the only test that calls the function has free adjacent sides.", "anchors": ["src/gsThinShellAssembler.hpp:boundaryForce_impl", "src/gsThinShellAssembler.h:boundaryForce"]}
{"id": "C147", "title": "Weak (penalty) conditions give a solvable linear system that tends to the problem with exact conditions", "statement": "The spatial linear assembly may impose conditions weakly: a prescribed displacement (`Weak Dirichlet`), a clamped side (`Weak Clamped`), no jump (`m_weakC0`) and no kink (`m_weakC1`) at interfaces, each with a penalty that is an option times stiffness over element area. With clamped sides and interfaces, and any positive options, the matrix is symmetric and semi-definite, its form vanishes exactly for displacements without strain, tilt, jump and kink, and the system has exactly one solution for every load iff no such displacement other than zero uses only free degrees of freedom. Then the problem with the conditions as exact constraints has exactly one solution, and the solution of the system with all options multiplied by tau differs from it by at most C/tau; a solution of the system meets the conditions exactly iff it also solves the system without them, so any reaction at an interface leaves a jump or a kink. The same should hold for weak Dirichlet conditions. The implementation gives their matrix and right-hand side a negative sign, so the limit for large values of the option is still right, but every system that is solvable without them becomes singular for some positive value of the option and indefinite for every larger one, and a shell that is held only by them has an indefinite matrix for every positive value.", "quantifier": "for all quadrature rules with positive weights, surfaces with independent tangents, basis functions, definite section moduli, sets of free degrees of freedom, loads, prescribed values, interface and boundary points with positive factors, and positive options", "why_tests_cant": "Solvability and the order of convergence concern all loads and all options; the singular value of the option of a weak Dirichlet condition depends on the mesh and is a single real number that no test run hits, while the indefinite matrix is accepted by the LU-type solvers used in the examples.", "anchors": ["src/gsThinShellAssembler.hpp:_assembleWeakBCs_impl", "src/gsThinShellAssembler.hpp:_assembleWeakIfc_impl", "src/gsThinShellAssembler.hpp:m_alpha_d_ifc"]}
{"id": "C148", "title": "The same isotropic sheet has the same moduli through every material class", "statement": "A homogeneous isotropic sheet with given Young's modulus, Poisson's ratio and thickness can be entered as the linear material, as a laminate of isotropic plies, as the Saint Venant-Kirchhoff branch of the non-linear class or, for small strains, as a hyperelastic material. The moduli A, B, C, D of the linear problem should be those of the textbook in all cases: t C and t^3/12 C with the plane-stress tensor C in the given coordinates, and no coupling. The linear material has them for every surface, the Saint Venant-Kirchhoff branch with a rule through the thickness that is exact for squares. A laminate of any number of isotropic plies with any thicknesses, angles and densities has them where the two tangents are orthogonal; wherever they are not, the modulus between the second normal strain and the shear is exactly twice the right one. The compressible materials, and the incompressible ones with Poisson's ratio one half, have them on flat shells; on a cylinder the neo-Hookean sheet is strictly stiffer than the isotropic one, because only the non-linear class evaluates the metric at every height. With one point through the thickness the non-linear class has no bending stiffness.", "quantifier": "for all material constants with non-zero denominators, thicknesses, surfaces with independent tangents, ply stacks and rules through the thickness with the stated exactness", "why_tests_cant": "Tests compare the classes on single benchmarks with orthogonal coordinates and a tolerance; equality for every parametrisation, stack and angle is a family of identities, and the factor two appears only on skew meshes.", "anchors": ["src/gsMaterialMatrixLinear.hpp:_Cijkl", "src/gsMaterialMatrixComposite.hpp:_cart2cov", "src/gsMaterialMatrixNonlinear.hpp:_Cijkl_impl", "src/gsMaterialMatrixIntegrate.hpp:integrateZ_into", "src/getMaterialMatrix.h:gsCompositeMatrix"]}
{"id": "C149", "title": "A shell of linear material is a conservative system and Newton's method finds its equilibria", "statement": "For a geometrically non-linear shell of linear material under dead loads, the assembled residual is minus the gradient of the potential of the Koiter shell and the assembled tangent is minus the derivative of the residual, as functions of the vector of unknowns; the tangent is symmetric and equals the matrix of the linear problem in the undeformed state. An equilibrium with a positive definite tangent is a strict local minimum of the potential. Around every equilibrium with a regular tangent the loop of the example programs converges and stops. If the shell is held such that no displacement is free of strain, then for small loads there is exactly one equilibrium near the undeformed state, it differs from the linear solution by the square of the load, and the programs find it. The same holds for laminates with a symmetric stacking sequence and fails for unsymmetric ones, whose residual lacks the coupling that the tangent has.", "quantifier": "for all finite sets of quadrature points with weights, undeformed surfaces, fields of unknowns, prescribed displacements, loads, states with independent tangents, elastic constants and thicknesses that may differ between the points, rules through the thickness, solvers and assembled systems", "why_tests_cant": "Tests see that the iteration converges on a few benchmarks; that the residual has a potential and the tangent is its second derivative for every mesh, basis and state, and that convergence is guaranteed for all small loads, are statements about infinitely many problems. A tangent that is slightly wrong, as for unsymmetric laminates, only slows the iteration.", "anchors": ["src/gsThinShellAssembler.hpp:assembleVector", "src/gsThinShellAssembler.hpp:assembleMatrix", "src/gsThinShellAssembler.hpp:constructSolution", "src/gsMaterialMatrixLinear.hpp:_Cijkl", "src/gsMaterialMatrixComposite.hpp:eval3D_vector"]}
{"id": "C150", "title": "A sheet of incompressible hyperelastic material is a conservative system that Newton's method solves", "statement": "For a planar sheet whose material is incompressible neo-Hookean or Mooney-Rivlin at each quadrature point, with any basis, any quadrature and any prescribed displacements: at every state in which the sheet is not degenerate the assembled residual is minus the gradient of the stored energy (thickness times the energy density of the solid) less the work of the loads, the assembled tangent is minus the derivative of the residual and is symmetric, and without prescribed displacements the linear matrix is the tangent of the undeformed state, which carries no forces. If the membrane forces are nowhere compressive, the material does not soften (always so for a neo-Hookean sheet) and no displacement is without strain in the deformed state, the tangent is positive definite and an equilibrium is a strict local minimum of the potential. The Newton loop of the programs converges from a neighbourhood of each equilibrium with regular tangent, and for small loads on a held sheet of positive constants there is exactly one solution near the undeformed state, which the programs find and which differs from the linear solution by the square of the load.", "quantifier": "all sheets (Jacobians at all quadrature points), all bases and loads, all material constants, all non-degenerate states, all rules through the thickness with unit weight", "why_tests_cant": "A test compares the tangent with differences of the residual at a few states; that the residual has a potential, is stable under tension and that Newton's method finds the equilibria are statements about all states and all starting values.", "anchors": ["src/gsThinShellAssembler.hpp:assembleVector_impl", "src/gsThinShellAssembler.hpp:assembleMatrix_impl", "src/gsMaterialMatrixNonlinear.hpp:_Sij_impl"]}
{"id": "C151", "title": "Evaluating a material at a given deformation tensor", "statement": "The functions that evaluate a material at a given deformation tensor agree with those that take the tensor from the deformed geometry: at the tensor of the deformed shell they return the same stress and matrix, the matrix is the derivative of the stress with respect to the strain, tensors that are not metrics are rejected, and the functions of a given strain return Hooke's law.", "quantifier": "for all shells, heights, deformation tensors, directions of strain, incompressible and compressible laws, moduli and output kinds", "why_tests_cant": "A test compares the two ways of evaluation at a few deformations of a plane; the cases that differ are curved shells away from the mid-surface, the neighbourhood of the undeformed state and tensors that no geometry produces.", "anchors": ["src/gsMaterialMatrixNonlinear.hpp:eval3D_stress_C", "src/gsMaterialMatrixNonlinear.hpp:eval3D_matrix_C", "src/gsMaterialMatrixLinear.hpp:eval3D_vector_C", "src/gsMaterialMatrixBaseDim.hpp:_getMetricDeformed"]}
{"id": "C152", "title": "A shell under follower pressure on an elastic foundation: residual, tangent and Newton's method fit together", "statement": "For a shell of linear material the assembled residual with pressure and foundation is the balance of forces (pressure along the deformed normal, foundation pulling back with -k u), the assembled tangent is minus its derivative, the programs converge to equilibria, and the residual comes from a potential.", "quantifier": "for all discretised shells, pressures, foundation stiffnesses, states with independent tangents, solvers", "why_tests_cant": "A test with a foundation would have to compare with an independent solution; the linear problem is right and the loop of the nonlinear one ends without a message after 100 iterations. Loss of symmetry shows only in the entries of the matrix.", "anchors": ["src/gsThinShellAssembler.hpp:_assemblePressure_impl", "src/gsThinShellAssembler.hpp:_assembleFoundation_impl", "src/gsThinShellAssembler.hpp:assembleVector"]}
{"id": "C153", "title": "Accuracy of the error estimate of a nonlinear shell", "statement": "For a nonlinear shell the estimate computed by the error helper is the true difference of the goal between the solutions on the finer and on the coarser basis, up to a constant times the square of the distance of the two solutions, where the constant depends neither on the loads nor on the coarser basis; so the efficiency of the estimate tends to one.", "quantifier": "for all shells of linear material, all dead loads, all coarser bases contained in the finer one, all goals without principal directions and all components, near every state with a regular tangent", "why_tests_cant": "A test compares one number for one load and one pair of meshes; that the difference is of second order for all loads and meshes, with one constant, is a statement about infinitely many solutions of nonlinear systems.", "anchors": ["src/gsThinShellDWRHelper.h:computeError", "src/gsThinShellAssemblerDWR.hpp:computeError_impl", "src/gsThinShellAssemblerDWR.hpp:_assembleDual", "src/gsThinShellAssembler.hpp:assembleVector", "src/gsThinShellAssembler.hpp:assembleMatrix"]}
{"id": "C154", "title": "The nonlinear system of a shell of incompressible hyperelastic material", "statement": "For a shell of incompressible neo-Hookean or Mooney-Rivlin material, integrated through the thickness with the metric that contains the third fundamental form: (1) the derivative of the residual assembleVector(x) is minus the matrix of assembleMatrix(x), which is symmetric, minus the forces that the rate of the third fundamental form causes through z^2 in the metric; (2) without prescribed displacements the undeformed state carries no internal forces and the matrix of the linear problem is the assembled tangent there; (3) at states without curvature the assembled tangent is the derivative; (4) where the missing part is small against the tangent, the programs converge near an equilibrium, with an error of the order of the tolerance; (5) on a flat plate under small loads there is exactly one solution near the undeformed state, it differs from the linear one by the square of the load, and the programs find it. Intended without restriction to flat shells: the residual is conservative and the linear solution is the limit of the nonlinear one for small loads. This is violated on every cylinder of neo-Hookean material: the residual is the gradient of no potential, and under a small bending load the nonlinear solution exceeds the linear one by a fixed proportion, however small the load is.", "quantifier": "all bases, geometries, quadrature and thickness rules, loads and states (1, 2); flat states (3); equilibria with a small missing part (4); flat undeformed shells (5); all cylinders of moderate thickness, all positive moduli and rules with nonnegative weights (violations)", "why_tests_cant": "tests compare a few solutions with reference values up to tolerances; the missing term is of the order of curvature times thickness, so that residual and iteration counts look plausible on thin shells; no test compares the limit of small loads or the symmetry of the true derivative", "anchors": ["src/gsThinShellAssembler.hpp:assembleMatrix", "src/gsThinShellAssembler.hpp:assembleVector", "src/gsMaterialMatrixBaseDim.hpp:_getMetricDeformed", "src/gsMaterialMatrixIntegrate.hpp:integrateZ_into", "src/gsMaterialMatrixNonlinear.hpp:_Cijkl"]}
{"id": "C155", "title": "The nonlinear system of patches joined by weak C0 and C1 interfaces is that of patches held by springs, and Newton's method solves it", "statement": "For a shell of several patches of linear material (bending, dead loads) with weak C0 and weak C1 interfaces: (1) at every state with independent tangents in the patches and on both sides of the interfaces, the assembled residual is minus the gradient of the Koiter energy of the patches, plus the energy of springs against the gap and against the change of the angles between the normals and between outer normal and normal, minus the work of the loads; (2) the assembled tangent is minus the derivative of the residual, and symmetric; (3) without prescribed displacements the undeformed state carries no forces, and the matrix of the linear problem is the tangent there; (4) around an equilibrium with a regular tangent the Newton loop of the programs converges; for small loads there is exactly one solution near the undeformed state, close to the linear solution, and the programs find it.", "quantifier": "all numbers of unknowns, quadrature points and interface points, all fields, weights, penalty factors, measures, parametrisations and material constants, all states with independent tangents", "why_tests_cant": "the tests that use weak coupling compare a few solutions; none compares residual, tangent and energy of a whole coupled system, and Newton's method hides a wrong tangent by taking more steps", "anchors": ["src/gsThinShellAssembler.hpp:_assembleWeakIfc_impl", "src/gsThinShellAssembler.hpp:assembleVector", "src/gsThinShellUtils.h:ovar2dot_expr"]}
{"id": "C156", "title": "Forces of weak interfaces are objective and in equilibrium", "statement": "For the vector and matrices of weak C0 and C1 interfaces between two patches: (1) the coupling forces of all basis functions of both patches add up to zero; (2) the moments of these forces, acting at the deformed control points, add up to zero; (3) a rigid motion of the deformed patches rotates the forces and leaves the tangent entries for rotated fields unchanged; (4) a rigid motion of the undeformed patches causes no forces, and the matrix of the linear problem annihilates infinitesimal rigid motions; (5) the tangent applied to an infinitesimal rotation of the deformed patches turns the coupling forces.", "quantifier": "all numbers of control points and quadrature points, all basis functions (summing to one where forces or translations are concerned), all undeformed and deformed control points with independent tangents, all penalty factors, measures and orientations, all rotations and translations", "why_tests_cant": "a test would need two coupled patches in general position and an arbitrary rigid motion, and would check finitely many; the test suite has no test of weak interfaces under rigid motion", "anchors": ["src/gsThinShellAssembler.hpp:_assembleWeakIfc_impl", "src/gsThinShellUtils.h:ovar2dot_expr", "src/gsThinShellUtils.h:ovar1_expr"]}
{"id": "C157", "title": "Penalty factors of hyperelastic shells follow the deformation", "statement": "In nonlinear assembly the weak conditions take their penalty factor from the moduli of the deformed state. The factor is unchanged by rigid motions of the deformed shell, for both solids, both orders and all rules. For an incompressible neo-Hookean square with stretches l and m it is c t 4mu/(l^2 m^2 min(l,m)^4)/h. Along every line of states the derivative of the coupling force is minus the assembled matrix plus the rate of the factor times the unit spring force, so the matrix is the exact tangent at a closed edge. It is not at an open edge; the factor falls below every fraction of its initial value under stretch, and at the undeformed state it is not differentiable with respect to a one-directional stretch.", "quantifier": "for all materials, rules, thicknesses, surfaces, rigid motions, displacements, test and trial functions and stretches", "why_tests_cant": "A test of one load step sees a converged joint at one stretch; it does not show the missing rate in the tangent, nor the eighth-power decay, nor that the factor has a kink exactly where every computation starts.", "anchors": ["src/gsThinShellAssembler.hpp:_assembleWeakIfc_impl", "src/gsThinShellAssembler.hpp:_assembleWeakBCs_impl"]}
{"id": "C158", "title": "Weakly held shells have a potential, a consistent tangent and the right small-load limit", "statement": "Take a shell of linear material with sides held by the penalty terms of weak Dirichlet and weakly clamped boundary conditions. The assembled nonlinear residual must be minus the gradient of the shell's energy plus the energy of stretched springs between the sides and their prescribed places; larger penalty values must make the shell stiffer; the assembled tangent must be minus the derivative of the residual; at the undeformed state residual and tangent must be those of the linear problem; and for small loads the equilibrium must agree with the linear solution up to the square of the load. As coded, the Dirichlet terms are the gradient of springs with the opposite sign, so large penalty values destabilise every state; the clamping terms of the residual have no first-order effect, so the equilibrium for small loads is that of a hinged shell although the linear problem and the tangent are clamped, and a plate held only by a clamped side has no equilibrium at all for small loads of one sign.", "quantifier": "all surfaces and points of integration, all fields of the unknowns, material constants, penalty values, weights, prescribed displacements, loads, and all regular states", "why_tests_cant": "A test compares a few solutions; it cannot show that for every discretisation and every penalty value the clamped residual has the derivative of a hinged shell, nor that no equilibrium exists near the undeformed state.", "anchors": ["src/gsThinShellAssembler.hpp:_assembleWeakBCs", "src/gsThinShellAssembler.hpp:_assembleWeakBCs(const gsFunctionSet<T> & deformed)"]}
{"id": "C159", "title": "Joined planar patches have a potential, a consistent tangent, the right linear problem and the right penalty limit", "statement": "Take planar patches of the linear material joined by the penalty terms of weak interfaces and held by those of weak Dirichlet sides. The assembled nonlinear residual must be minus the gradient of the energy of the sheet plus that of stretched springs along interfaces and sides; the assembled tangent must be minus the derivative of the residual, so that Newton's method converges quadratically to regular equilibria; at rest, residual and tangent must be right-hand side and matrix of the linear problem; and with a growing penalty option the solution of the linear problem must tend to the one in which the sides have the prescribed displacement. As coded, residual terms of interfaces and sides are gradients of springs that push; the tangent has the springs of the interfaces with the other sign, so that Newton's method moves away from equilibria as soon as some displacement stores more energy in the springs than in the patches; the linear matrix has the measure of the interfaces twice; and the right-hand side of the sides lacks a factor, so that the limit of the linear problem is a displacement of the prescribed one divided by the largest modulus.", "quantifier": "all Jacobians and points of integration, all fields of the unknowns, material constants, factors, weights, prescribed displacements, loads, regular states, and all starting points along the repelling direction", "why_tests_cant": "Tests run single configurations; they show neither that every Newton sequence from a whole line of starting points leaves a fixed ball nor to which displacement the solutions tend as the option grows without bound.", "anchors": ["src/gsThinShellAssembler.hpp:_assembleWeakBCs", "src/gsThinShellAssembler.hpp:_assembleWeakIfc"]}
{"id": "C160", "title": "Newton's method copes with weakly clamped sides", "statement": "Take a shell of linear material with weakly clamped sides whose undeformed state is that of vanishing unknowns, stable even without the clamping, under a load times a small number. Newton's method with the assembled tangent and residual, started with the solution of the linear problem, must find the equilibrium; every step must raise the order of its error in the load; and the number of steps must not depend on the penalty values. As coded, the tangent contains the clamping although the derivative of the residual does not: every iterate differs from the equilibrium by an error that is still of first order in the load, and with penalty values multiplied by c the sides turn by at most (n+1)/sqrt(c) times a constant in n steps while the equilibrium turns them by a fixed multiple of the load. Convergence holds, but only geometrically.", "quantifier": "all surfaces and points of integration, all fields of the unknowns, material constants, penalty values and their multiples, weights, loads, all numbers of steps and all sufficiently small load factors", "why_tests_cant": "A test sees one run stop or reach the maximum number of iterations; it shows neither that no iterate of any run ever gains an order of accuracy nor how the speed depends on the penalty for all discretisations.", "anchors": ["src/gsThinShellAssembler.hpp:_assembleWeakBCs", "src/gsThinShellAssembler.hpp:_assembleWeakBCs(const gsFunctionSet<T> & deformed)"]}
{"id": "C161", "title": "The nonlinear system of a planar sheet of compressible material belongs to the energy of least thickness", "statement": "Take a planar sheet of compressible neo-Hookean, Mooney-Rivlin or extended neo-Hookean material. At every deformation there must be exactly one thickness stretch without stress across the thickness, that of least energy. With it the assembled residual must be minus the gradient of the stored energy less the work of the loads, the assembled tangent with the condensed moduli minus its derivative and symmetric; in the undeformed state there must be no internal forces and the matrix must be that of plane stress with the given Young's modulus and Poisson's ratio. A sheet in tension with positive definite moduli must be stable, Newton's method must find its equilibria, and small loads must have one small solution close to that of the linear problem. The computed thickness must agree with the exact one up to the tolerance. As coded the iteration for the thickness ends with an error in every state of the extended material whose squared area ratio is at most mu/(3 mu + lambda).", "quantifier": "all planar geometries, points of integration, fields of the unknowns and loads, all three materials with all constants of a solid mixed over the points, all states that are not degenerate", "why_tests_cant": "A test checks finite differences at one state of one mesh with one material; it does not show that the thickness computed by an inner iteration leaves the assembled forces a gradient for all deformations, nor where that iteration must fail.", "anchors": ["src/gsMaterialMatrixNonlinear.hpp:_eval3D_Compressible_C33", "src/gsMaterialMatrixNonlinear.hpp:_eval3D_Compressible_matrix", "src/gsThinShellAssembler.hpp:assembleVector"]}
{"id": "C162", "title": "The nonlinear system of a shell of compressible material is consistent", "statement": "Take a shell of compressible neo-Hookean, Mooney-Rivlin or extended neo-Hookean material whose thickness stretch at every height is the one without stress across the thickness. The assembled tangent must be minus the derivative of the assembled residual and symmetric, the residual must belong to a potential, the undeformed state must carry no internal forces and the matrix of the linear problem must be the derivative there; equilibria under small loads must be close to the linear solution and Newton's method must find them quadratically. The forces and moments with the computed thickness stretches must agree with the exact ones up to the tolerance. As coded the tangent leaves out the rate of the third fundamental form that the stresses contain: it is exact in states without curvature, but on every cylinder the residual has no potential, and small bending loads give a solution that differs from that of the linear problem by a fixed proportion.", "quantifier": "all surfaces whose bodies are not degenerate at the heights of the rule, all points of integration, fields of the unknowns, rules through the thickness and loads, all three materials with all constants of a solid mixed over the points", "why_tests_cant": "A test compares one residual with finite differences to some accuracy, on flat geometries mostly; it shows neither that the error is exactly the third fundamental form nor that the thickness iteration is harmless for the derivative in all states.", "anchors": ["src/gsMaterialMatrixNonlinear.hpp:_eval3D_Compressible_stress", "src/gsMaterialMatrixNonlinear.hpp:_eval3D_Compressible_matrix", "src/gsThinShellAssembler.hpp:assembleMatrix"]}
{"id": "C163", "title": "The iteration for the thickness of compressible materials converges near the undeformed state, and Newton's method works with it", "statement": "For the compressible neo-Hookean, Mooney-Rivlin and extended neo-Hookean materials with admissible constants there is a neighbourhood of the undeformed state in which the iteration for the thickness stretch stops by itself with the stretch that leaves no stress across the thickness, up to twice its tolerance; its error is any wanted fraction of the error of the starting value if the deformation is small enough. For a planar sheet the iterations of all quadrature points then stop, and residual and tangent assembled with the computed stretches are those with the exact stretches up to a constant times 1e-10. Under small loads on a held sheet the nonlinear solution program, which runs this inner iteration in every assembly, stops by itself with the solution of the problem with exact thickness up to a constant times 1e-10.", "quantifier": "all three materials, all constants with positive modulus and Poisson's ratio between -1 and 1/2 (not negative for the extended one), all metrics near each other, all discretised planar sheets without prescribed displacements, all loads below a bound", "why_tests_cant": "A test runs the inner iteration at finitely many strains and sees that it stopped; it cannot show that no strain in a neighbourhood makes it throw, nor that two nested iterations with tolerances 1e-10 and 1e-6 together end within the stated distance of the exact solution.", "anchors": ["src/gsMaterialMatrixNonlinear.hpp:_eval3D_Compressible_C33", "src/gsMaterialMatrixNonlinear.hpp:_eval3D_Compressible_stress", "src/gsMaterialMatrixNonlinear.hpp:_eval3D_Compressible_matrix", "src/gsThinShellAssembler.hpp:assembleMatrix"]}
{"id": "C164", "title": "The iterations for the thickness of compressible shells converge near the undeformed state", "statement": "Take a shell, flat or curved, of compressible neo-Hookean, Mooney-Rivlin or extended neo-Hookean material, with the thickness stretch found by the inner iteration at every height of every point. In all states close to the undeformed one all these iterations must stop by themselves without an error, and residual and tangent assembled with the computed stretches must be those of plane stress at every height up to a constant times the inner tolerance. On a plate under small loads the programs must then stop by themselves with the one solution of the nonlinear problem, up to a constant times the inner tolerance 1e-10, although neither the residual nor the tangent they use is exact.", "quantifier": "all geometries, bases, points of integration, rules through the thickness with regular heights, fields of the unknowns, loads, all three materials with all constants of a solid mixed over the points, all states in a ball around the undeformed one, all small load factors", "why_tests_cant": "A test runs one mesh with one load; it does not show that no point at no height of any nearby state makes the inner iteration throw, nor that an error of every residual leaves the outer loop convergent.", "anchors": ["src/gsMaterialMatrixNonlinear.hpp:_eval3D_Compressible_C33", "src/gsMaterialMatrixIntegrate.hpp:integrateZ_into", "src/gsThinShellAssembler.hpp:assembleVector"]}
{"id": "C165", "title": "A membrane with wrinkles has a convex energy, and every load has an equilibrium", "statement": "Take a membrane in space (assembler without bending) of the linear material wrapped by the tension-field material with the mixed criterion. Define the energy of a strain as the least energy that any wrinkling strain can leave of it. Where the classification is clear and the angles of the wrinkled points are right the program returns the membrane forces of this state; the assembled residual is then minus the gradient of the total potential, at every state and also where points pass between taut, wrinkled and slack. This potential is convex however large the displacements are. So the states with residual zero are exactly those of least potential; for every load there is one if the supports leave no displacement without gradient; all equilibria have the same membrane forces; and one that is under tension in all directions is the only one. A residual that is not zero bounds the excess of the potential.", "quantifier": "all discretised membranes, flat or curved, all positive definite symmetric stiffnesses (in particular all linear materials with Poisson's ratio between -1 and 1/2), thicknesses, loads, all states of any size", "why_tests_cant": "A test compares the forces of one wrinkled sheet with a reference; it cannot show that the energy is convex over all displacements, that every load has an equilibrium, or that no second equilibrium with other forces exists.", "anchors": ["src/gsMaterialMatrixTFT.hpp:eval3D_stress", "src/gsMaterialMatrixTFT.hpp:_compute_S", "src/gsThinShellAssembler.hpp:assembleVector", "src/gsMaterialMatrixIntegrate.hpp:multiplyLinZ_into"]}
{"id": "C166", "title": "On membranes with wrinkles the assembled matrix is the derivative of the residual and Newton's method converges", "statement": "Take a membrane in space (assembler without bending) of the linear material wrapped by the tension-field material with the mixed criterion. The stress that wrinkling leaves has kinks where a point passes between taut, wrinkled and slack; the states in which no point is at a kink form an open set. There the general variant of the wrapper returns the thickness times the derivative of this stress, and the assembled matrix is minus the derivative of the residual. The matrix is symmetric, no displacement has a negative second variation, and the second variation of a displacement is zero exactly if it moves nothing along the lines of tension and its strain is taken up by the wrinkles that are there. If only the displacement zero is so, the matrix is regular, an equilibrium there is the only one among all states, and Newton's method as the example programs run it, started near it, stops by itself with a solution that is right up to a constant times the square of the tolerance. For the variant for linear materials this is false: it has a wrong sign, and the assembled matrix of a skew element with wrinkles is not even symmetric.", "quantifier": "all discretised membranes, flat or curved, all positive definite symmetric stiffnesses (in particular all linear materials with Poisson's ratio between -1 and 1/2), thicknesses, loads, all states without kinks of any size, all exact linear solvers", "why_tests_cant": "A test follows Newton's method on one wrinkled sheet; a wrong sign in a derivative shows there only as slow convergence, and not at all where the wrinkles are along the axes of an orthogonal mesh. No test shows that the matrix is never indefinite or that no second equilibrium exists.", "anchors": ["src/gsMaterialMatrixTFT.hpp:_eval3D_matrix_impl", "src/gsMaterialMatrixTFT.hpp:_compute_C", "src/gsThinShellAssembler.hpp:assembleMatrix_impl", "src/gsMaterialMatrixLinear.hpp:eval3D_dmatrix"]}
{"id": "C167", "title": "The linear buckling analysis returns the critical load factors", "statement": "The buckling example subtracts the linear matrix from the tangent at the linear solution and solves the generalised eigenvalue problem of the two matrices. The returned values are the factors at which the linear matrix plus the factor times the difference loses its stiffness: up to sign they are exactly those factors, the structure resists every displacement up to the first one, the values do not depend on the eigenvectors found, and both builds of the program return the same values. For load factors that tend to zero the predicted critical loads of a shell converge to those of the rate of the stiffness, whether they are computed from the linear solution or from the true equilibrium.", "quantifier": "all finite-dimensional spaces, symmetric pencils with the eigenpairs the solver promises, all shells of linear material and all paths of displacements that agree with the linear solution up to the square of the load", "why_tests_cant": "The example prints its values beside closed-form references for two plates and nothing compares them; which of the two solvers is used depends on the build, so the order and the reciprocal are never seen side by side.", "anchors": ["examples/example_shell3D_DWR_buckling.cpp:Kdiff", "src/gsThinShellAssembler.hpp:assembleMatrix"]}
{"id": "C168", "title": "The modal example prints frequencies from above and exact estimates", "statement": "The modal example solves the eigenvalue problem of stiffness and mass matrix on a basis and on a finer one, scales the eigenvectors and prints the value, the estimate of its error and the estimated value. The values exist, they are the min-max values of elastic over kinetic energy whichever of the two solvers is compiled in, they are positive exactly if every field costs energy, a finer basis lowers all of them, the printed estimate is exactly the difference of the two values and the printed goal is the value of the finer basis. If the exact value is not above that of the finer basis, the printed efficiency lies between 0 and 1, and it is not a number exactly if the coarse basis has the exact value.", "quantifier": "all quadrature rules, moduli and nested bases of any size, all mode numbers and all eigenpairs the solvers may return", "why_tests_cant": "The example prints a table that no test reads; double frequencies, for which the solver may return the modes in any order, need particular plates, and the min-max characterisation speaks of all subspaces.", "anchors": ["examples/example_shell3D_DWR_modal.cpp:eigvalL", "src/gsThinShellAssemblerDWR.hpp:matrixNorm"]}
{"id": "C169", "title": "The table of the buckling example prints the error of the critical load", "statement": "For nested bases the buckling example prints, next to the value of the coarse basis, an estimate of its error: the estimate is the difference between the value of the finer basis and that of the coarse one, so the printed estimate of the goal is the value of the finer basis; the difference is never positive; and a row is printed for every pair of modes that are not orthogonal. If the exact value is not above that of the finer basis, the printed efficiency lies between 0 and 1, and it is not a number exactly if the coarse basis has the exact value.", "quantifier": "all flat plates with in-plane prestress, all nested bases on common quadrature points, all modes, both builds of the program", "why_tests_cant": "The example prints the numbers without comparing them; the normalisation by the geometric stiffness and the order of the matrices differ between the two builds, and a run of either build alone gives plausible numbers.", "anchors": ["examples/example_shell3D_DWR_buckling.cpp:matrixNorm", "examples/example_shell3D_DWR_buckling.cpp:computeErrorEig", "src/gsThinShellAssemblerDWR.hpp:computeErrorEig_impl"]}
{"id": "C170", "title": "The table of the linear error-estimation example is exact, except that point loads are left out", "statement": "In `example_shell3D_DWR` with the goal `Displacement`: if a component of the displacement is the goal, the printed estimate is exactly the difference of the goal values of the linear solutions in the finer and in the coarser basis, and the printed estimated goal is the goal value of the solution in the finer basis. If the squared displacement is the goal (component 9, the default), the estimated goal is the goal of the finer solution minus the squared distance of the two solutions, so it is never too large. Both hold if there are no point loads or if the point loads are passed to the estimator. The printed efficiency is 1 exactly if the finer solution has the exact goal, and differs from 1 by the ratio of the errors of the finer and the coarser solution. All systems have exactly one solution if every motion except rest strains the plate at a quadrature point (positive weights, regular surface, definite moduli). The program does not pass them: then the work of the point loads on the difference of the dual solutions is missing, and if there are point loads only (test case 1), the printed estimate is 0 on every mesh.", "quantifier": "All quadrature points, weights, symmetric moduli, body forces, tractions and point loads, all goal points, all pairs of bases (not necessarily nested) and all solutions of the three linear systems.", "why_tests_cant": "The test would have to solve the problem in the finer basis as well, and for all loads and meshes; the example prints 0 as the estimate for its own second test case.", "anchors": ["examples/example_shell3D_DWR.cpp:main", "src/gsThinShellAssemblerDWR.hpp:computeError_impl", "src/gsThinShellAssemblerDWR.hpp:computeGoal"]}
{"id": "C171", "title": "Parameters passed as text", "statement": "The example programs pass the material parameters to the material through std::to_string (six decimals) and to the load of the static example through %e (seven digits). The text leaves a number unchanged exactly if it has at most six decimals (seven digits for %e); otherwise to_string changes it by at most 5e-7 and %e by the fraction 5e-7. Static example, square: for a modulus and a thickness of at least h (5e-6 <= h <= 1) the computed problem has exactly one clamped solution, the deflection given as exact up to a factor within 7.5e-6/h of 1, and the factor is 1 for parameters with six decimals and seven digits, as those of the program. Modal example, square: for modulus, thickness and density of at least h the eigenvalue of the computed problem differs from the reference by the fraction 2.5e-6/h + 2e-10 at most. Buckling example, square with tension in both directions: the eigenvalue that belongs to the reference, times the factor 1 + eps/2 of C140, differs from it by the fraction 2.5e-6/h + 3e-19 at most. Without a lower bound this fails: a positive thickness below 5e-7 becomes 0 and no displacement is in equilibrium with the load, and a positive density below 5e-7 (steel in tonnes and millimetres has 7.85e-9) makes the mass matrix zero while the reference is a positive number. Poisson's ratio is assumed to have six decimals (and seven digits in the static example) in the error bounds.", "quantifier": "for all parameters with the stated bounds and all nearest roundings", "why_tests_cant": "The programs run with parameters of a few decimals, which the text does not change.", "anchors": ["examples/example_shell3D_DWR.cpp:snprintf", "examples/example_shell3D_DWR_modal.cpp:std::to_string", "examples/example_shell3D_DWR_buckling.cpp:std::to_string"]}
{"id": "C172", "title": "Small strains of the spectral materials", "statement": "In the undeformed state the tangent of the spectral implementation is, whatever orthonormal principal directions the eigenvalue solver returns, the plane-stress stiffness of an isotropic solid: with the shear modulus mu (neo-Hookean), c1 + c2 (Mooney-Rivlin), half the sum of mu_i alpha_i (Ogden, any number of terms), incompressible or with the bulk modulus of E and nu. The compressible Ogden material therefore has the small-strain stiffness of the linear material with the same E and nu if half the sum of mu_i alpha_i is the shear modulus; this holds for the three terms of the example and the unit tests for every E and nu. The principal stretches and directions computed from a correct eigenvalue decomposition in the undeformed state are such an orthonormal basis and unit stretches. It does not hold in general: the program does not compare the Ogden parameters with E and nu. The undeformed state of an Ogden material is stable, that is, stores energy in every small strain, if and only if the sum of mu_i alpha_i is positive (compressible: with a positive bulk modulus). For a Mooney-Rivlin material the condition is c1 + c2 > 0. The parameter E is Young's modulus of the incompressible neo-Hookean and Mooney-Rivlin materials only for nu = 1/2; in general Young's modulus is 3E/(2(1+nu)), and 15/13 instead of 1 for E = 1, nu = 0.3, the parameters of a test case of the two-dimensional example.", "quantifier": "for all parameters, terms, bases and principal directions", "why_tests_cant": "Identity over reals.", "anchors": ["src/gsMaterialMatrixNonlinear.hpp:_d2Psi_dab_impl", "src/gsMaterialMatrixNonlinear.hpp:_Cabcd_impl", "examples/example_shell2D.cpp:mu1"]}
