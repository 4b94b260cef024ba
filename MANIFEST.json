{
 "claims": [
  {
   "property": "C01",
   "status": "proved",
   "theorems": [
    "Verif.Ids.C01_decode_encode",
    "Verif.Ids.C01_encode_injective",
    "Verif.Ids.C01_encode_decode"
   ],
   "note": "All codes and all pairs; no preconditions."
  },
  {
   "property": "C02",
   "status": "proved",
   "theorems": [
    "Verif.Ids.C02_available",
    "Verif.Ids.C02_unavailable",
    "Verif.Ids.C02_linear",
    "Verif.Ids.C02_null_iff",
    "Verif.Ids.C02_never_null",
    "Verif.Ids.C02_safe",
    "Verif.Ids.C02_overloads_agree"
   ],
   "note": "Full case analysis of the factory: available combinations give the right class, unavailable ones give null/throw as stated, never undefined behaviour."
  },
  {
   "property": "C03",
   "status": "partial",
   "theorems": [
    "Verif.Ids.C03_roundtrip_partial",
    "Verif.Ids.C03_roundtrip_violated",
    "Verif.Ids.C03_unwritable_iff"
   ],
   "note": "Code violates the round trip for some materials (type string not readable back); partial theorem gives the exact set for which it holds."
  },
  {
   "property": "C04",
   "status": "partial",
   "theorems": [
    "Verif.Material.C04_named_parameters",
    "Verif.Material.C04_getter_safe",
    "Verif.Material.C04_positions",
    "Verif.Material.C04_setter_total",
    "Verif.Material.C04_size_grows",
    "Verif.Material.C04_pointer_setter_violated",
    "Verif.Material.C04_pointer_setter_partial"
   ],
   "note": "Named setters/getters proved for all sequences. The pointer overload of the indexed setter is undefined behaviour outside the list (violated); partial theorem for existing slots."
  },
  {
   "property": "C05",
   "status": "partial",
   "theorems": [
    "Verif.Material.C05_registered",
    "Verif.Material.C05_hasDeformed_partial",
    "Verif.Material.C05_hasUndeformed_violated",
    "Verif.Material.C05_hasUndeformed_partial"
   ],
   "note": "hasUndeformed tests the wrong pointer (violated); hasDeformed is right for all call sequences."
  },
  {
   "property": "C06",
   "status": "partial",
   "theorems": [
    "Verif.Material.C06_wrapper_violated",
    "Verif.Material.C06_wrapper_partial",
    "Verif.Material.C06_wrapper_inner"
   ],
   "note": "Wrapper built before a deformed geometry is registered loses the reference geometry (violated); right otherwise."
  },
  {
   "property": "C07",
   "status": "partial",
   "theorems": [
    "Verif.Container.C07_refines_list",
    "Verif.Container.C07_copy_isolated",
    "Verif.Container.C07_alias_follows",
    "Verif.Container.C07_set_out_of_range_violated"
   ],
   "note": "Refinement to a list specification for all operation sequences. set() out of range is undefined behaviour instead of an error (violated part)."
  },
  {
   "property": "C08",
   "status": "partial",
   "theorems": [
    "Verif.Container.C08_read_partial",
    "Verif.Container.C08_out_of_range_violated"
   ],
   "note": "Right for files with all indices in range; out-of-range indices are undefined behaviour instead of an error (violated)."
  },
  {
   "property": "C09",
   "status": "partial",
   "theorems": [
    "Verif.Layout.C09_injective",
    "Verif.Layout.C09_values_partial",
    "Verif.Layout.C09_transform_violated",
    "Verif.Layout.C09_single_height_partial"
   ],
   "note": "Every column written once with the value of its point and height for quantities that allocate n*m columns; transformations, theta and gamma write out of bounds for two or more heights (violated)."
  },
  {
   "property": "C10",
   "status": "partial",
   "theorems": [
    "Verif.Material.C10_aliasing_violated",
    "Verif.Material.C10_last_built_partial",
    "Verif.Material.C10_reference",
    "Verif.Material.C10_mip_violated"
   ],
   "note": "Evaluators on a shared material interfere (violated); right for the last evaluator built on a material."
  },
  {
   "property": "C100",
   "status": "partial",
   "theorems": [
    "Verif.DWR.C100_flat_partial",
    "Verif.DWR.C100_exact_partial",
    "Verif.DWR.C100_difference_violated",
    "Verif.DWR.C100_sign_violated",
    "Verif.DWR.C100_first_point_violated",
    "Verif.DWR.C100_second_variation_violated"
   ],
   "note": "Right for flat plates without moments; curved geometries (sign of the normal variation, dual difference), moments (first quadrature point, second variation) violated."
  },
  {
   "property": "C101",
   "status": "partial",
   "theorems": [
    "Verif.DWR.C101_plain_partial",
    "Verif.DWR.C101_copy_violated",
    "Verif.DWR.C101_empty_violated"
   ],
   "note": "Right for programs without copies and empty objects; copying and the empty constructor end in undefined behaviour (violated)."
  },
  {
   "property": "C102",
   "status": "partial",
   "theorems": [
    "Verif.DWR.C102_data_partial",
    "Verif.DWR.C102_agree_partial",
    "Verif.DWR.C102_last_partial",
    "Verif.DWR.C102_pressure_violated",
    "Verif.DWR.C102_bcs_violated",
    "Verif.DWR.C102_numbering_partial",
    "Verif.DWR.C102_continuity_violated",
    "Verif.DWR.C102_bounds_violated"
   ],
   "note": "Data of the two assemblers agree always; boundary conditions only without updateBCs, the numbering of the dual vector only for continuity 0 and the same conditions (violated otherwise)."
  },
  {
   "property": "C103",
   "status": "partial",
   "theorems": [
    "Verif.DWR.C103_rhs",
    "Verif.DWR.C103_newton_partial",
    "Verif.DWR.C103_transpose_violated",
    "Verif.DWR.C103_dirichlet_violated",
    "Verif.DWR.C103_normalised_partial",
    "Verif.DWR.C103_scale",
    "Verif.DWR.C103_zero_violated",
    "Verif.DWR.C103_uninitialised_violated"
   ],
   "note": "Right-hand side and scale invariance in full; the meaning of the estimate for dead loads, symmetric tangents and zero prescribed displacements; transposed system, prescribed displacements, zero error and use before computation violated."
  },
  {
   "property": "C104",
   "status": "partial",
   "theorems": [
    "Verif.Dirichlet.C104_shown",
    "Verif.Dirichlet.C104_linear_partial",
    "Verif.Dirichlet.C104_newton",
    "Verif.Dirichlet.C104_cleared_violated"
   ],
   "note": "Constructed displacement and Newton steps in full; for the linear system an exact characterisation of the histories for which it is right, and the violation for the others."
  },
  {
   "property": "C105",
   "status": "partial",
   "theorems": [
    "Verif.Dirichlet.C105_ordered_partial",
    "Verif.Dirichlet.C105_more_violated",
    "Verif.Dirichlet.C105_fewer_violated",
    "Verif.Dirichlet.C105_mass_violated"
   ],
   "note": "Right if assemble() or a set-up of the space comes first after a direct change of the option; otherwise out of bounds, singular or of the wrong size (violated)."
  },
  {
   "property": "C106",
   "status": "proved",
   "theorems": [
    "Verif.Balance.C106_force",
    "Verif.Balance.C106_tangent",
    "Verif.Balance.C106_rotation",
    "Verif.Balance.C106_resultant",
    "Verif.Balance.C106_moment"
   ],
   "note": "Residual, tangent, infinitesimal rotations, resultant and moment, for all resultants and all materials that depend on the strains."
  },
  {
   "property": "C107",
   "status": "partial",
   "theorems": [
    "Verif.Balance.C107_start",
    "Verif.Balance.C107_predict_partial",
    "Verif.Balance.C107_error",
    "Verif.Balance.C107_moduli_partial",
    "Verif.Balance.C107_moduli_violated"
   ],
   "note": "Consistency at a zero update, predictor for symmetric moduli and its exact error for the linear membrane law; the moduli are those of the previous state (violated)."
  },
  {
   "property": "C108",
   "status": "partial",
   "theorems": [
    "Verif.Balance.C108_kinetic_partial",
    "Verif.Balance.C108_symmetric_partial",
    "Verif.Balance.C108_total_partial",
    "Verif.Balance.C108_lumped_violated"
   ],
   "note": "Consistent matrix in full; the lumped matrix is zero (violated)."
  },
  {
   "property": "C109",
   "status": "partial",
   "theorems": [
    "Verif.Balance.C109_force",
    "Verif.Balance.C109_moment",
    "Verif.Balance.C109_pressure_partial",
    "Verif.Balance.C109_pressure_violated"
   ],
   "note": "Dead loads in full; the pressure is right if the area does not change, otherwise it is scaled with the reference area (violated)."
  },
  {
   "property": "C11",
   "status": "partial",
   "theorems": [
    "Verif.Material.C11_eval_ctor_violated",
    "Verif.Material.C11_other_ctors_partial"
   ],
   "note": "Pointwise evaluator registers the deformed geometry as reference (violated); other constructors right."
  },
  {
   "property": "C110",
   "status": "partial",
   "theorems": [
    "Verif.Principal.C110_pstress_partial",
    "Verif.Principal.C110_pstrain_partial",
    "Verif.Principal.C110_pstress_violated",
    "Verif.Principal.C110_pstrain_violated",
    "Verif.Principal.C110_signs",
    "Verif.Principal.C110_field_partial",
    "Verif.Principal.C110_field_violated"
   ],
   "note": "Right for points with the metric of the last point of the call; the basis of the last point is used for all (violated). Signs of the values are not affected (proved), the tension field can be near its tolerance (violated)."
  },
  {
   "property": "C111",
   "status": "partial",
   "theorems": [
    "Verif.Principal.C111_total",
    "Verif.Principal.C111_values",
    "Verif.Principal.C111_exist",
    "Verif.Principal.C111_directions_partial",
    "Verif.Principal.C111_directions_violated",
    "Verif.Principal.C111_cauchy_partial",
    "Verif.Principal.C111_cauchy_violated",
    "Verif.Principal.C111_stretch_partial",
    "Verif.Principal.C111_thickness_violated"
   ],
   "note": "Values and absence of out-of-range writes in full; directions of non-zero values; a vanishing value may get the normal as direction, Cauchy stresses are referred to the undeformed basis, the third principal strain is always zero (violated)."
  },
  {
   "property": "C112",
   "status": "partial",
   "theorems": [
    "Verif.Principal.C112_elastic_partial",
    "Verif.Principal.C112_pstress_partial",
    "Verif.Principal.C112_pstrain_partial",
    "Verif.Principal.C112_wrinkled_violated",
    "Verif.Principal.C112_cauchy_partial",
    "Verif.Principal.C112_cauchy_violated",
    "Verif.TFTSection.C112_elastic_violated"
   ],
   "note": "Stress and strain correspond in all states if those of the wrapped material do, which fails for the linear material away from the middle surface (violated); principal values in taut and slack states; principal values of wrinkled states and slack Cauchy stresses belong to the unmodified material (violated; the header documents this for the principal stresses)."
  },
  {
   "property": "C113",
   "status": "partial",
   "theorems": [
    "Verif.Outputs.C113_linear_partial",
    "Verif.Outputs.C113_linear_refused",
    "Verif.Outputs.C113_nonlinear_partial",
    "Verif.Outputs.C113_nonlinear_refused",
    "Verif.Outputs.C113_laminate_partial",
    "Verif.Outputs.C113_laminate_refused",
    "Verif.Outputs.C113_tft_partial",
    "Verif.Outputs.C113_tft_refused",
    "Verif.Outputs.C113_principal_strain_violated",
    "Verif.Outputs.C113_directions_violated",
    "Verif.Outputs.C113_heights_violated",
    "Verif.Outputs.C113_tft_heights_violated",
    "Verif.Outputs.C113_laminate_violated",
    "Verif.Outputs.C113_laminate_heights_violated",
    "Verif.Outputs.C113_tft_transform_violated",
    "Verif.Outputs.C113_tft_parameters_violated"
   ],
   "note": "Linear, nonlinear and wrapped materials: all outputs but the named ones, with the exact list of refused outputs; principal strains, nonlinear directions, several heights, laminates and the wrapper transformations violated."
  },
  {
   "property": "C114",
   "status": "partial",
   "theorems": [
    "Verif.Explicit.C114_explicit",
    "Verif.Explicit.C114_implicit",
    "Verif.Explicit.C114_restored_partial",
    "Verif.Explicit.C114_stress_partial",
    "Verif.Explicit.C114_not_restored_violated",
    "Verif.Explicit.C114_stress_violated",
    "Verif.Explicit.C114_unregistered_violated",
    "Verif.Explicit.C114_unregistered_partial"
   ],
   "note": "Field of the registered geometry for all histories in full; the registered geometries are put back if no query fails; a failing query leaves the wrong geometry behind, and without a registered geometry the result depends on the history (violated)."
  },
  {
   "property": "C115",
   "status": "partial",
   "theorems": [
    "Verif.Deform.C115_isochoric_partial",
    "Verif.Deform.C115_product_partial",
    "Verif.Deform.C115_linear_partial",
    "Verif.Deform.C115_linear_violated",
    "Verif.Deform.C115_linear_detF_violated",
    "Verif.Deform.C115_compressible_partial",
    "Verif.Deform.C115_compressible_violated"
   ],
   "note": "Incompressible materials in full (product of the stretches away from the shortcut of C58); the linear and the compressible materials are reported with the isochoric thickness although their plane-stress state is another (violated)."
  },
  {
   "property": "C116",
   "status": "partial",
   "theorems": [
    "Verif.TFTSection.C116_membrane",
    "Verif.TFTSection.C116_stiffness",
    "Verif.TFTSection.C116_moment_partial",
    "Verif.TFTSection.C116_moment_violated",
    "Verif.TFTSection.C116_pointwise_violated",
    "Verif.TFTSection.C116_pointwise_partial",
    "Verif.TFTSection.C116_affine_partial",
    "Verif.TFTSection.C116_nonlinear_violated",
    "Verif.TFTSection.C116_curvature_violated"
   ],
   "note": "Membrane force and stiffnesses of the wrapped linear material in full, all materials with a stress affine in the height; moment and flexural stresses of the wrapped linear material, force of a bent neo-Hookean membrane and dependence on the curvature violated."
  },
  {
   "property": "C117",
   "status": "partial",
   "theorems": [
    "Verif.Penalty.C117_positive",
    "Verif.Penalty.C117_orthogonal_partial",
    "Verif.Penalty.C117_oblique_violated",
    "Verif.Penalty.C117_lower",
    "Verif.Penalty.C117_isotropic_partial"
   ],
   "note": "Positivity, the lower bound and, for orthogonal tangents, the right stiffness in full; with oblique tangents the two changes of basis are in the wrong order and the factor grows without bound (violated)."
  },
  {
   "property": "C118",
   "status": "partial",
   "theorems": [
    "Verif.ExprMat.C118_var1",
    "Verif.ExprMat.C118_var2_partial",
    "Verif.ExprMat.C118_var2_violated",
    "Verif.ExprMat.C118_deriv2",
    "Verif.ExprMat.C118_deriv2dot",
    "Verif.ExprMat.C118_bending",
    "Verif.ExprMat.C118_flatdot2",
    "Verif.ExprMat.C118_flatdot_partial",
    "Verif.ExprMat.C118_flatdot_violated"
   ],
   "note": "First variation, second derivatives, bending strain and its mixed second variation in full for every number of functions; second variations and flatdot for one space in both arguments; with two different spaces the results have the wrong size or are transposed (violated; the assembler never does this)."
  },
  {
   "property": "C119",
   "status": "partial",
   "theorems": [
    "Verif.SectionForces.C119_sum",
    "Verif.SectionForces.C119_contains",
    "Verif.SectionForces.C119_membrane_partial",
    "Verif.SectionForces.C119_moment_violated",
    "Verif.SectionForces.C119_membrane_violated"
   ],
   "note": "The integrator integrates the principal values instead of taking principal values of the integrated tensor. Sum and inclusion hold in general; equality holds for stresses with common ordered directions; in pure bending both moments equal the mean and the membrane values do not vanish. The metric is constant through the thickness."
  },
  {
   "property": "C12",
   "status": "partial",
   "theorems": [
    "Verif.Material.C12_single_material_violated",
    "Verif.Material.C12_single_material_partial",
    "Verif.Material.C12_single_patch_partial",
    "Verif.Material.C12_container",
    "Verif.Material.C12_container_too_small"
   ],
   "note": "Constructor from one material and both geometries is undefined behaviour for two or more patches (violated); other constructors right for all patch counts."
  },
  {
   "property": "C120",
   "status": "partial",
   "theorems": [
    "Verif.DMatrix.C120_neoHookean",
    "Verif.DMatrix.C120_numerical",
    "Verif.DMatrix.C120_numerical_partial",
    "Verif.DMatrix.C120_shear_violated"
   ],
   "note": "Closed form in full; numerical derivative without shear in full for smooth symmetric tangents (the finite difference of G+Smo is replaced by the derivative); with shear the derivative is taken elsewhere (violated, see C56)."
  },
  {
   "property": "C121",
   "status": "partial",
   "theorems": [
    "Verif.DPoints.C121_closed_partial",
    "Verif.DPoints.C121_single_partial",
    "Verif.DPoints.C121_numerical_violated"
   ],
   "note": "Closed form (incompressible neo-Hookean): all points and heights. Numerical derivative: one point with any number of heights; with two points or more undefined behaviour (out-of-bounds column)."
  },
  {
   "property": "C122",
   "status": "partial",
   "theorems": [
    "Verif.Shortcut.C122_formulas_partial",
    "Verif.Shortcut.C122_apart_partial",
    "Verif.Shortcut.C122_dominant_partial",
    "Verif.Shortcut.C122_units_violated",
    "Verif.Shortcut.C122_millimetres_violated",
    "Verif.Shortcut.C122_undeformed_partial"
   ],
   "note": "The formulas are independent of the unit (all five laws, compressible ones for a given thickness stretch); the shortcut before them is not: in a small enough unit every stress is returned as zero; gsAllCloseRelativeToMax (G+Smo core) is taken by its documented meaning."
  },
  {
   "property": "C123",
   "status": "partial",
   "theorems": [
    "Verif.ShellTangent.C123_rest",
    "Verif.ShellTangent.C123_flat_partial",
    "Verif.ShellTangent.C123_tangent_violated",
    "Verif.ShellTangent.C123_energy_rest",
    "Verif.ShellTangent.C123_energy_partial",
    "Verif.ShellTangent.C123_energy_violated"
   ],
   "note": "The metric at a height contains the third fundamental form, the strain variations of the assembler do not: the exact remainder is proved (C123_rest, C123_energy_rest), it vanishes at points without curvature, and a plate bent to unit curvature is a witness that neither statement holds in general. Incompressible materials, zero-stress shortcut left out."
  },
  {
   "property": "C124",
   "status": "partial",
   "theorems": [
    "Verif.Reparam.C124_stress_partial",
    "Verif.Reparam.C124_tangent",
    "Verif.Reparam.C124_thickness",
    "Verif.Reparam.C124_compressible_partial",
    "Verif.Reparam.C124_force_partial",
    "Verif.Reparam.C124_matrix_partial",
    "Verif.Reparam.C124_shortcut_violated"
   ],
   "note": "All five laws with the thickness-stretch iteration and static condensation; internal force and tangent integrands for the incompressible laws and orientation-preserving changes. The zero-stress shortcut in front of the stress formulas breaks the statement (witness)."
  },
  {
   "property": "C125",
   "status": "partial",
   "theorems": [
    "Verif.Planar.C125_metric",
    "Verif.Planar.C125_basis",
    "Verif.Planar.C125_resultants",
    "Verif.Planar.C125_force",
    "Verif.Planar.C125_tangent",
    "Verif.Planar.C125_decoupled",
    "Verif.Planar.C125_pressure",
    "Verif.Planar.C125_foundation_partial",
    "Verif.Planar.C125_foundation_violated",
    "Verif.Planar.C125_linear_partial",
    "Verif.Planar.C125_linear_violated"
   ],
   "note": "Metrics, bases, hyperelastic resultants and moduli, residual, tangent, decoupling and pressure in full. The linear material uses the covariant metric as contravariant metric (exact characterisation: right iff the Jacobian is orthonormal; violated, factor 256 for a parametrisation stretched by 2) and the foundation is dropped although its in-plane stiffness acts (violated)."
  },
  {
   "property": "C126",
   "status": "partial",
   "theorems": [
    "Verif.PosDef.C126_neoHooke",
    "Verif.PosDef.C126_mooneyRivlin_partial",
    "Verif.PosDef.C126_mooneyRivlin_violated",
    "Verif.PosDef.C126_balloon_violated",
    "Verif.PosDef.C126_extended_partial",
    "Verif.PosDef.C126_extended",
    "Verif.PosDef.C126_compressible_partial",
    "Verif.PosDef.C126_auxetic_violated",
    "Verif.PosDef.C126_compressible_violated",
    "Verif.PosDef.C126_svk",
    "Verif.PosDef.C126_stiffness"
   ],
   "note": "Neo-Hookean (incompressible), Saint Venant-Kirchhoff and, for Poisson ratios that are not negative, the extended compressible material are positive definite in every deformation. For Mooney-Rivlin and for the compressible neo-Hookean material exact criteria are proved and states are given where they fail (the constitutive laws, not their coding, are the cause). Compressible Mooney-Rivlin is not treated."
  },
  {
   "property": "C127",
   "status": "partial",
   "theorems": [
    "Verif.PlaneStress.C127_neoHooke",
    "Verif.PlaneStress.C127_mooneyRivlin",
    "Verif.PlaneStress.C127_extended",
    "Verif.PlaneStress.C127_unique",
    "Verif.PlaneStress.C127_compressed_violated",
    "Verif.PlaneStress.C127_found_partial"
   ],
   "note": "Existence, uniqueness, bounds and the sign of the normal stress for the three compressible laws. The iteration is treated for the extended neo-Hookean law: found if the start value has relative error at most one half, never found for strongly compressed states (all states with J^2 (4 mu + lambda) <= 2 mu)."
  },
  {
   "property": "C128",
   "status": "partial",
   "theorems": [
    "Verif.Project.C128_full",
    "Verif.Project.C128_length",
    "Verif.Project.C128_history",
    "Verif.Project.C128_projection_partial",
    "Verif.Project.C128_projection_violated"
   ],
   "note": "The order, the length and the source of the prescribed values of the full vector hold for every complete numbering and every sequence of calls. The body of projectL2_into is commented out: the projected vector is empty and building the patches reads it out of bounds as soon as there is a free function (violated); with no free function the result is the geometry plus the prescribed values, for every function (partial)."
  },
  {
   "property": "C129",
   "status": "partial",
   "theorems": [
    "Verif.Project.C129_stresses_partial",
    "Verif.Project.C129_patch_violated",
    "Verif.Project.C129_sizes_partial",
    "Verif.Project.C129_sizes_violated"
   ],
   "note": "Each point is evaluated alone, so that the stored metric is the right one (the defect of C110 does not occur); up to the relative tolerance 1e-14 of the zero test. Proved for linear and hyperelastic materials and patch 0. Violated: points of other patches cannot be asked for; laminates throw or follow a null pointer. Tension-field materials are not treated."
  },
  {
   "property": "C13",
   "status": "partial",
   "theorems": [
    "Verif.Geometry.C13_metric_inverse",
    "Verif.Geometry.C13_basis_dual",
    "Verif.Geometry.C13_basis_unique",
    "Verif.Geometry.C13_stored_basis_violated",
    "Verif.Geometry.C13_stored_basis_partial"
   ],
   "note": "The contravariant basis of the 3D code is dual (all regular surfaces); the member m_acon left behind holds the covariant basis (violated)."
  },
  {
   "property": "C130",
   "status": "partial",
   "theorems": [
    "Verif.Benchmark.C130_NH",
    "Verif.Benchmark.C130_MR",
    "Verif.Benchmark.C130_OG_partial",
    "Verif.Benchmark.C130_NHc",
    "Verif.Benchmark.C130_MRc",
    "Verif.Benchmark.C130_OGc_partial",
    "Verif.Benchmark.C130_test_partial",
    "Verif.Benchmark.C130_OG_violated"
   ],
   "note": "The closed-form solutions of the unit test hold for every stretch and parameter set: incompressible and compressible neo-Hookean and Mooney-Rivlin (analytical formulas), and Ogden with any number of terms (spectral formulas, any exact eigenvalue solver). The numbers for the volume ratio in the unit test are correct to 2e-10. Violated where the shortcut of _evalStretch is taken: an incompressible square compressed to (sqrt(5)-1)/2 has a lateral stress at the closed-form lateral stretch. The statement is about the constitutive formulas at a homogeneous state; the discretised boundary value problem is not solved."
  },
  {
   "property": "C131",
   "status": "partial",
   "theorems": [
    "Verif.System.C131_energy",
    "Verif.System.C131_symmetric",
    "Verif.System.C131_kernel",
    "Verif.System.C131_rigid",
    "Verif.System.C131_solvable",
    "Verif.System.C131_underintegrated",
    "Verif.System.C131_linear",
    "Verif.System.C131_integrated",
    "Verif.System.C131_laminate_partial",
    "Verif.System.C131_onepoint_violated",
    "Verif.System.C131_laminate_violated",
    "Verif.System.C131_membrane_violated"
   ],
   "note": "Energy, symmetry, kernel, rigid motions and solvability proved for all definite moduli; a count shows that more than six free degrees of freedom per quadrature point always give a singular matrix. Definiteness proved for the linear material, for materials with positive definite matrices under rules with two different nodes, and for laminates with orthogonal tangents. Violated: laminates in skew bases give an unsymmetric matrix; one integration point through the thickness gives no bending stiffness; without bending every flat shell with a free normal component is singular. Boundary, interface and foundation terms are not part of this matrix (C71-C77)."
  },
  {
   "property": "C132",
   "status": "proved",
   "theorems": [
    "Verif.DWR.C132_serial",
    "Verif.DWR.C132_share"
   ],
   "note": "All schedules of all numbers of threads agree with the serial program, whose own defects are the subject of C96."
  },
  {
   "property": "C133",
   "status": "partial",
   "theorems": [
    "Verif.Balloon.C133_NH_layers",
    "Verif.Balloon.C133_NH_partial",
    "Verif.Balloon.C133_MR_partial",
    "Verif.Balloon.C133_OG_partial",
    "Verif.Balloon.C133_area",
    "Verif.Balloon.C133_layers_violated"
   ],
   "note": "The residual of the assembler (with and without bending) is taken as an exact integral over the parameters with arbitrary smooth virtual displacements vanishing at the edge of the patch. `C133_NH_layers` is for every thickness rule; the formula of the unit test holds exactly for rules with all points on the mid-surface (`_partial`), and fails with two Gauss points (`C133_layers_violated`). The Ogden theorem assumes an exact eigenvalue solver and that the shortcut of `_evalStretch` is not taken."
  },
  {
   "property": "C134",
   "status": "partial",
   "theorems": [
    "Verif.Plate.C134_modes",
    "Verif.Plate.C134_spectrum",
    "Verif.Plate.C134_static",
    "Verif.Plate.C134_isotropic",
    "Verif.Plate.C134_laminate_partial",
    "Verif.Plate.C134_angle_violated"
   ],
   "note": "The forms are exact integrals over the plate with smooth displacement fields, i.e. the problem that the assembled matrices discretise; the discretisation error of the unit test is outside. `C134_spectrum` is an equivalence and uses the completeness of the sines. `C134_laminate_partial` needs layers of one isotropic material; for an orthotropic layer at 45 degrees the first Navier mode is no mode at all (`C134_angle_violated`). In-plane vibrations are bounded in C136."
  },
  {
   "property": "C135",
   "status": "partial",
   "theorems": [
    "Verif.Plate.C135_modes",
    "Verif.Plate.C135_buckles",
    "Verif.Plate.C135_linear",
    "Verif.Plate.C135_linear_equal",
    "Verif.Plate.C135_MR_partial",
    "Verif.Plate.C135_NH_partial",
    "Verif.Plate.C135_equal_partial",
    "Verif.Plate.C135_onePoint_violated"
   ],
   "note": "Exact integrals over the plate, as in C134; the edges are held out of plane and the plate is stretched homogeneously. The hyperelastic theorems need a thickness rule exact for squares (`_partial`); with one point there is no bending stiffness and the undeformed plate buckles already (`C135_onePoint_violated`). The zero-stress shortcut of the hyperelastic materials is left out."
  },
  {
   "property": "C136",
   "status": "proved",
   "theorems": [
    "Verif.Plate.C136_laplace",
    "Verif.Plate.C136_orthotropic",
    "Verif.Plate.C136_coercive",
    "Verif.Plate.C136_lowest",
    "Verif.Plate.C136_discrete",
    "Verif.Plate.C136_solvable",
    "Verif.Plate.C136_best",
    "Verif.Plate.C136_unitTest",
    "Verif.Plate.C136_angle"
   ],
   "note": "Basis functions are arbitrary twice differentiable fields that vanish at the edges; integrals are exact. Rests on Wirtinger's inequality and on the vanishing integral of the Gaussian curvature, proved for twice differentiable functions. `C136_orthotropic` gives the bound for orthotropic plates; for a layer at 45 degrees Navier's formula is no bound (`C136_angle`)."
  },
  {
   "property": "C137",
   "status": "proved",
   "theorems": [
    "Verif.Cylinder.C137_balance",
    "Verif.Cylinder.C137_pipe",
    "Verif.Cylinder.C137_unique",
    "Verif.Cylinder.C137_linear",
    "Verif.Cylinder.C137_tangent",
    "Verif.Cylinder.C137_ring",
    "Verif.Cylinder.C137_inextensional",
    "Verif.Cylinder.C137_rolled",
    "Verif.Cylinder.C137_moment",
    "Verif.Cylinder.C137_shortening"
   ],
   "note": "Exact integrals over the parameters, arbitrary smooth functions in place of splines; the pressure acts per undeformed area, as in the source (see C133). C137_balance holds for any material with constant section forces."
  },
  {
   "property": "C138",
   "status": "partial",
   "theorems": [
    "Verif.Threads.C138_independent",
    "Verif.Threads.C138_values",
    "Verif.Threads.C138_no_race",
    "Verif.Threads.C138_race_violated",
    "Verif.Threads.C138_lost_violated",
    "Verif.Threads.C138_stress_violated",
    "Verif.Threads.C138_section_partial"
   ],
   "note": "Every interleaving of the accesses of any number of threads. Violated with the option Explicit: _compute_TF exchanges the registered geometry of the shared wrapped material without a lock, a data race (undefined behaviour) with every other evaluation; even with atomic accesses a stress of another thread can come from the geometry of updateDeformed, and two tension fields can leave that geometry registered for good. Partial: right if the calls run one at a time."
  },
  {
   "property": "C139",
   "status": "partial",
   "theorems": [
    "Verif.Solve.C139_returned",
    "Verif.Solve.C139_errors",
    "Verif.Solve.C139_linear",
    "Verif.Solve.C139_accepted",
    "Verif.Solve.C139_converges",
    "Verif.Solve.C139_warning_violated",
    "Verif.Solve.C139_diverges_violated",
    "Verif.Solve.C139_absolute_violated"
   ],
   "note": "Returned values, errors, linear problems, size of the residual of an accepted solution and local convergence are proved for an abstract assembler and solver. Violated: the warning on reaching the maximum number of iterations has the condition it+1 == it and is never printed, so a solution that was not found (witness: a spring on which the iteration goes to and fro, out of balance by the whole load) is returned like one that was; the tolerance is absolute (witness: accepted after one iteration, out of balance by 200 times the load). The sparse solver is a parameter."
  },
  {
   "property": "C14",
   "status": "proved",
   "theorems": [
    "Verif.Geometry.C14_gram",
    "Verif.Geometry.C14_weingarten",
    "Verif.Geometry.C14_dual",
    "Verif.Geometry.C14_shifter",
    "Verif.Geometry.C14_body"
   ],
   "note": "All surfaces with independent tangents, all heights with regular shifter."
  },
  {
   "property": "C140",
   "status": "partial",
   "theorems": [
    "Verif.Examples.C140_static",
    "Verif.Examples.C140_static_solves",
    "Verif.Examples.C140_modal",
    "Verif.Examples.C140_modal_high_violated",
    "Verif.Examples.C140_modal_ub_violated",
    "Verif.Examples.C140_biaxial_solution",
    "Verif.Examples.C140_biaxial",
    "Verif.Examples.C140_biaxial_reference",
    "Verif.Examples.C140_numeric",
    "Verif.Examples.C140_numeric_violated",
    "Verif.Examples.C140_numeric_ub_violated",
    "Verif.Examples.C140_reciprocal_violated",
    "Verif.Examples.C140_translation_violated",
    "Verif.Examples.C140_uniaxial_solution",
    "Verif.Examples.C140_uniaxial_violated"
   ],
   "note": "Exact integrals on the unit square, arbitrary smooth functions instead of splines, exact arithmetic. The numerical references of the program, computed by its authors, agree with the model to 4e-13 (C140_numeric). Violations: C140_modal_high_violated (indices 69 to 80), C140_modal_ub_violated and C140_numeric_ub_violated (indices outside of the vectors), C140_numeric_violated (default load), C140_reciprocal_violated (no Spectra), C140_translation_violated (singular matrix), C140_uniaxial_violated (sign). In-plane eigenvectors of the buckling problem, the circle and the triangle are not treated. Also seen: the CSV header names Efficiency_num before Efficiency_an, the rows have them in the other order."
  },
  {
   "property": "C141",
   "status": "partial",
   "theorems": [
    "Verif.Relaxed.C141_state",
    "Verif.Relaxed.C141_minimum",
    "Verif.Relaxed.C141_potential",
    "Verif.Relaxed.C141_mixed",
    "Verif.Relaxed.C141_angle",
    "Verif.Relaxed.C141_search",
    "Verif.Relaxed.C141_coordinates",
    "Verif.Relaxed.C141_accept_partial",
    "Verif.Relaxed.C141_strain_violated",
    "Verif.Relaxed.C141_stress_violated",
    "Verif.Relaxed.C141_accept_violated"
   ],
   "note": "Existence, uniqueness, least energy and potential of the state without compression; the mixed criterion with an admissible angle gives it, an admissible angle always exists, all admissible angles and all coordinate systems give the same stress. The strain criterion calls taut points wrinkled, the stress criterion calls wrinkled points slack, and the acceptance test accepts angles that leave compression (violated); the test is right for isotropic materials in orthonormal coordinates (partial). The slack multiplier is taken as its default 0."
  },
  {
   "property": "C142",
   "status": "partial",
   "theorems": [
    "Verif.TFTSearch.C142_upward",
    "Verif.TFTSearch.C142_interval",
    "Verif.TFTSearch.C142_ends",
    "Verif.TFTSearch.C142_result",
    "Verif.TFTSearch.C142_accepted",
    "Verif.TFTSearch.C142_fallback",
    "Verif.TFTSearch.C142_found_partial",
    "Verif.TFTSearch.C142_isotropic_partial",
    "Verif.TFTSearch.C142_skew_violated"
   ],
   "note": "The change of sign at the wrinkling angle follows from the minimum of the energy (C141), so the fault of Brent's method on decreasing functions (C42) does not touch the right angle. Proved for every law: the candidates of the scan contain the angle if it is the only zero in its interval; for the linear isotropic material in orthonormal coordinates this holds for all angles between the sample points. Violated in strongly skew coordinates: both zeros fall into one interval, no change of sign is seen, the search returns 0 and the returned stress is compressive. Newton's method of the core library is a parameter. In the exact model a zero exactly at a sample point other than 0 is not seen either; in floating point the value there is not exactly zero."
  },
  {
   "property": "C143",
   "status": "partial",
   "theorems": [
    "Verif.TFTSearch.C143_aligned_partial",
    "Verif.TFTSearch.C143_turned_violated"
   ],
   "note": "The phase of the stress is computed with a missing factor 1/2, atan2(-N12/RN,(N11-N22)/RN) instead of (N11-N22)/(2 RN). Along the coordinate lines and their diagonals the phase is right all the same: there the interval contains the angle and Brent's method finds it. For turned axes the interval can miss the angle: a state with principal stresses 1.4+-sqrt(2) has an interval without any zero, so Brent's method and the bisection fail and Newton's method of the core library (a parameter of the model) decides; a wrong result would be caught by the acceptance test and the search on 50 intervals (C142)."
  },
  {
   "property": "C144",
   "status": "partial",
   "theorems": [
    "Verif.PatchTest.C144_linear",
    "Verif.PatchTest.C144_hyper_partial",
    "Verif.PatchTest.C144_compressible_partial",
    "Verif.PatchTest.C144_planar_partial",
    "Verif.PatchTest.C144_planar_violated",
    "Verif.PatchTest.C144_shortcut_violated"
   ],
   "note": "Exact integrals instead of Gauss quadrature, arbitrary smooth functions instead of splines, one patch; the measure of a side is the length of its tangent vector (G+Smo core). The tractions are the derivative of the energy of the sheet with respect to the deformation (linear and incompressible materials) or the stress at the thickness stretch found by the iteration (compressible materials). C144_linear: no restriction, the deformation may leave the plane. Violations: C144_planar_violated (the planar code reads the covariant metric where it needs the contravariant one, l.1286, so the linear material sees the parametrisation), C144_shortcut_violated (the zero-stress test compares contravariant components with an absolute floor, so the stress is dropped where the parametrisation is fast). C144_hyper_partial, C144_planar_partial and C144_compressible_partial exclude these."
  },
  {
   "property": "C145",
   "status": "partial",
   "theorems": [
    "Verif.Uniaxial.C145_test",
    "Verif.Uniaxial.C145_square_partial",
    "Verif.Uniaxial.C145_compressible_partial"
   ],
   "note": "C145_test is the test as it stands, with the zero-stress shortcut; the state is uniform, existence of other solutions is not excluded. C145_square_partial: any parametrisation of the square and any stretch, without the shortcut. C145_compressible_partial: where the iteration for the thickness stretch returns; the closed form needs a thickness stress of exactly zero. Integrals are exact, the stretches of the deformed square enter the formula of the stress directly."
  },
  {
   "property": "C146",
   "status": "partial",
   "theorems": [
    "Verif.Reaction.C146_formula",
    "Verif.Reaction.C146_free_partial",
    "Verif.Reaction.C146_assembled",
    "Verif.Reaction.C146_all",
    "Verif.Reaction.C146_corner_violated"
   ],
   "note": "C146_formula gives the exact value: the functions of the corners carry a part of the tractions on the adjacent sides. Without these tractions (C146_free_partial) and for all sides together (C146_all) the statement holds. C146_assembled states the formula for the assembled right-hand side with a quadrature that is exact for the functions. Functions smooth, one patch."
  },
  {
   "property": "C147",
   "status": "partial",
   "theorems": [
    "Verif.PenaltySystem.C147_coupling",
    "Verif.PenaltySystem.C147_limit",
    "Verif.PenaltySystem.C147_exact",
    "Verif.PenaltySystem.C147_dirichlet_partial",
    "Verif.PenaltySystem.C147_singular_violated",
    "Verif.PenaltySystem.C147_indefinite_violated"
   ],
   "note": "Weak Dirichlet conditions enter with a negative sign (l.603, 645): the limit of large options is right, but the matrix is indefinite and singular for some option. Mixed systems are covered with the couplings at fixed options."
  },
  {
   "property": "C148",
   "status": "partial",
   "theorems": [
    "Verif.SameSheet.C148_linear",
    "Verif.SameSheet.C148_svk",
    "Verif.SameSheet.C148_laminate_partial",
    "Verif.SameSheet.C148_laminate_skew_violated",
    "Verif.SameSheet.C148_compressible_partial",
    "Verif.SameSheet.C148_incompressible_partial",
    "Verif.SameSheet.C148_curved_violated",
    "Verif.SameSheet.C148_onepoint_violated"
   ],
   "note": "The laminate transforms with a mixture of strain and stress rules (see C32); for skew tangents one entry is exactly twice the right one. The curvature effect on hyperelastic shells is of the order of the square of thickness times curvature."
  },
  {
   "property": "C149",
   "status": "partial",
   "theorems": [
    "Verif.ShellSystem.C149_gradient",
    "Verif.ShellSystem.C149_tangent",
    "Verif.ShellSystem.C149_linear",
    "Verif.ShellSystem.C149_stable",
    "Verif.ShellSystem.C149_newton",
    "Verif.ShellSystem.C149_small",
    "Verif.ShellSystem.C149_laminate_partial",
    "Verif.ShellSystem.C149_laminate_violated"
   ],
   "note": "Dead loads only; follower pressure and foundation are not in the potential (C75 treats their matrices). The laminate part is violated for unsymmetric stacking: `eval3D_vector` leaves out the coupling terms (see C30)."
  },
  {
   "property": "C15",
   "status": "partial",
   "theorems": [
    "Verif.Geometry.C15_planar_violated",
    "Verif.Geometry.C15_planar_partial",
    "Verif.Geometry.C15_planar_full_metric_partial"
   ],
   "note": "Planar surfaces: stored contravariant metric is the covariant one (violated); right for orthonormal parametrisations only."
  },
  {
   "property": "C150",
   "status": "proved",
   "theorems": [
    "Verif.PlanarSystem.C150_gradient",
    "Verif.PlanarSystem.C150_tangent",
    "Verif.PlanarSystem.C150_linear",
    "Verif.PlanarSystem.C150_tension",
    "Verif.PlanarSystem.C150_newton",
    "Verif.PlanarSystem.C150_small"
   ],
   "note": "For the two incompressible laws with a stored energy; the shortcut that sets the stress to zero very close to the undeformed state is left out."
  },
  {
   "property": "C151",
   "status": "partial",
   "theorems": [
    "Verif.AtTensor.C151_same",
    "Verif.AtTensor.C151_derivative_partial",
    "Verif.AtTensor.C151_plane_partial",
    "Verif.AtTensor.C151_derivative_violated",
    "Verif.AtTensor.C151_reject_partial",
    "Verif.AtTensor.C151_reject_violated",
    "Verif.AtTensor.C151_linear_partial",
    "Verif.AtTensor.C151_linear_derivative",
    "Verif.AtTensor.C151_linear_violated",
    "Verif.AtTensor.C151_public_partial",
    "Verif.AtTensor.C151_public_violated"
   ],
   "note": "The evaluations at a tensor and at a geometry have the same outcomes for every law. The matrix is the derivative of the stress for incompressible neo-Hookean and Mooney-Rivlin material where the stress returned is not zero; violated at the undeformed state, near which the stress is cut to zero and the matrix is not. Tensors with negative determinant are rejected; violated for minus a metric. Linear material: agreement for the kinds of the full strain, for the membrane kinds on the mid-surface and for the bending kinds without curvature; violated on an undeformed cylinder. The public C(strain) writes outside of its result always, the public S(strain) reads the members of the last evaluation. The compressible derivative is not stated here."
  },
  {
   "property": "C152",
   "status": "partial",
   "theorems": [
    "Verif.LoadedShell.C152_tangent_partial",
    "Verif.LoadedShell.C152_newton_partial",
    "Verif.LoadedShell.C152_linear",
    "Verif.LoadedShell.C152_symmetric_partial",
    "Verif.LoadedShell.C152_conservative_violated",
    "Verif.LoadedShell.C152_sign_violated",
    "Verif.LoadedShell.C152_weak_violated",
    "Verif.LoadedShell.C152_diverges_violated"
   ],
   "note": "Without a foundation residual and tangent are right and the programs converge locally (C152_tangent_partial, C152_newton_partial); the linear problem lacks the pressure stiffness only (C152_linear). Violated: the foundation vector has the wrong sign, so the programs solve for a foundation of stiffness -k if it is weak (C152_weak_violated) and run away by powers of two if it is all that holds the shell (C152_diverges_violated); pressure on the undeformed area has no potential (C152_conservative_violated)."
  },
  {
   "property": "C153",
   "status": "partial",
   "theorems": [
    "Verif.DWR.C153_quadratic_partial",
    "Verif.DWR.C153_efficiency_partial",
    "Verif.DWR.C153_dual_partial",
    "Verif.DWR.C153_exact_violated"
   ],
   "note": "Second-order accuracy with one constant for all dead loads and coarser bases, efficiency, unique dual; goals without principal directions on the domain, quadrature of the finer basis, loads counted (withLoads). That the estimate is the difference itself is violated: the quadratic term is there."
  },
  {
   "property": "C154",
   "status": "partial",
   "theorems": [
    "Verif.HyperShell.C154_derivative",
    "Verif.HyperShell.C154_linear",
    "Verif.HyperShell.C154_flat_partial",
    "Verif.HyperShell.C154_newton_partial",
    "Verif.HyperShell.C154_small_partial",
    "Verif.HyperShell.C154_conservative_violated",
    "Verif.HyperShell.C154_linear_violated"
   ],
   "note": "The derivative of the assembled residual with the term that the tangent lacks, for all states without degenerate metric; linear problem; exactness on flat states; convergence near equilibria where the missing part is at most a sixteenth of the tangent; small loads on plates. Incompressible neo-Hooke and Mooney-Rivlin, dead loads. Violated on all cylinders: no potential exists, and the nonlinear solution does not tend to the linear one (relative difference bounded below for small loads), because the matrix drops the change of the third fundamental form that the stress contains."
  },
  {
   "property": "C155",
   "status": "partial",
   "theorems": [
    "Verif.JoinedShell.C155_gradient",
    "Verif.JoinedShell.C155_tangent_partial",
    "Verif.JoinedShell.C155_linear",
    "Verif.JoinedShell.C155_newton_partial",
    "Verif.JoinedShell.C155_small",
    "Verif.JoinedShell.C155_tangent_violated"
   ],
   "note": "Gradient, linear problem and small loads hold in general. The tangent is exact where the angles between outer normals and normals are those of the undeformed shell (always without weak C1 interfaces); C155_tangent_violated: a folded hinge makes the tangent of every shell unsymmetric and wrong. Linear material, because the penalty factors are read off the moduli at the deformed geometry."
  },
  {
   "property": "C156",
   "status": "partial",
   "theorems": [
    "Verif.JointBalance.C156_resultant",
    "Verif.JointBalance.C156_moment",
    "Verif.JointBalance.C156_moment_partial",
    "Verif.JointBalance.C156_objective_partial",
    "Verif.JointBalance.C156_rigid",
    "Verif.JointBalance.C156_rigid_partial",
    "Verif.JointBalance.C156_tangent",
    "Verif.JointBalance.C156_linear",
    "Verif.JointBalance.C156_rotation_partial",
    "Verif.JointBalance.C156_gap_violated",
    "Verif.JointBalance.C156_rotation_violated"
   ],
   "note": "Resultant, objectivity of the tangent and the exact effect of a gap between the undeformed edges are proved for all states; balance of moments, objectivity of the forces and freedom from rigid-motion forces hold where the undeformed patches meet and fail with a gap, because the C0 penalty acts on the difference of displacements, not of places. The tangent turns the forces where the in-plane coupling carries none; for a folded edge with non-unit Jacobian columns it does not."
  },
  {
   "property": "C157",
   "status": "partial",
   "theorems": [
    "Verif.PenaltyState.C157_objective",
    "Verif.PenaltyState.C157_biaxial",
    "Verif.PenaltyState.C157_rate",
    "Verif.PenaltyState.C157_tangent_partial",
    "Verif.PenaltyState.C157_tangent_violated",
    "Verif.PenaltyState.C157_soft_violated",
    "Verif.PenaltyState.C157_kink_violated"
   ],
   "note": "The factor uses the moduli at the deformed geometry with the transformation at the undeformed one. Objectivity, value under biaxial stretch and exact rate of the force are proved. The tangent omits the rate of the factor (violation at open edges, proved right at closed edges); the factor decays with the eighth power of the stretch and has a kink at rest."
  },
  {
   "property": "C158",
   "status": "partial",
   "theorems": [
    "Verif.HeldShell.C158_sign_violated",
    "Verif.HeldShell.C158_tangent_partial",
    "Verif.HeldShell.C158_newton_partial",
    "Verif.HeldShell.C158_unstable_violated",
    "Verif.HeldShell.C158_linear",
    "Verif.HeldShell.C158_clamp_violated",
    "Verif.HeldShell.C158_small_violated",
    "Verif.HeldShell.C158_flap_violated"
   ],
   "note": "Linear material; sides held weakly. Agreement of residual and tangent with the linear problem at rest is proved. Without clamped sides the tangent is consistent and Newton converges (partial); the spring sign, the instability for large penalty values, the derivative of the clamping, the small-load limit and the plate held only by a clamped side are violations."
  },
  {
   "property": "C159",
   "status": "partial",
   "theorems": [
    "Verif.JoinedSheet.C159_sign_violated",
    "Verif.JoinedSheet.C159_tangent_violated",
    "Verif.JoinedSheet.C159_tangent_partial",
    "Verif.JoinedSheet.C159_newton_partial",
    "Verif.JoinedSheet.C159_soft_partial",
    "Verif.JoinedSheet.C159_repel_violated",
    "Verif.JoinedSheet.C159_linear_violated",
    "Verif.JoinedSheet.C159_limit_violated",
    "Verif.JoinedSheet.C159_limit_partial",
    "Verif.JoinedSheet.C159_linear_partial"
   ],
   "note": "Violated by interfaces and sides of planar patches: the residual is the gradient of springs that push; the tangent has the interface terms with the other sign than the derivative of the residual, which makes stiffly joined equilibria repel Newton iterations; the linear matrix has the measure of interfaces twice and the linear right-hand side lacks the factor of the sides, so the penalty limit is g/m. Proved in part: without interfaces (tangent, Newton), soft interfaces (linear convergence), unit factors (linear problem, limit). Linear planar material only; penalty factors are numbers at points (C157 treats their dependence on the deformation)."
  },
  {
   "property": "C16",
   "status": "proved",
   "theorems": [
    "Verif.Geometry.C16_rigid_motion",
    "Verif.Geometry.C16_strain_expansion",
    "Verif.Geometry.C16_zero_strain_iff",
    "Verif.Geometry.C16_voigt"
   ],
   "note": "All rigid motions; strain expansion and vanishing characterised."
  },
  {
   "property": "C160",
   "status": "partial",
   "theorems": [
    "Verif.ClampNewton.C160_steps_violated",
    "Verif.ClampNewton.C160_slow_violated",
    "Verif.ClampNewton.C160_converges_partial"
   ],
   "note": "Linear material, undeformed at vanishing unknowns, small loads. Geometric convergence of Newton's method (and that every step is solvable) is proved as partial; that no step gains an order in the load and that stiff clamping slows the method down without bound are violations."
  },
  {
   "property": "C161",
   "status": "partial",
   "theorems": [
    "Verif.PlaneSheet.C161_thickness",
    "Verif.PlaneSheet.C161_gradient",
    "Verif.PlaneSheet.C161_tangent",
    "Verif.PlaneSheet.C161_linear",
    "Verif.PlaneSheet.C161_tension",
    "Verif.PlaneSheet.C161_newton",
    "Verif.PlaneSheet.C161_small",
    "Verif.PlaneSheet.C161_close_partial",
    "Verif.PlaneSheet.C161_compressed_violated"
   ],
   "note": "Materials with the exact thickness stretch: the gradient, tangent, linearisation, stability, Newton and small-load theorems hold in full. C161_close_partial carries the residual over to the computed stretches of the extended material at moderate area ratios; convergence of the thickness iteration for the other two materials is not proved. C161_compressed_violated: strongly compressed states make the thickness iteration of the extended material end with an error."
  },
  {
   "property": "C162",
   "status": "partial",
   "theorems": [
    "Verif.PlaneShell.C162_derivative",
    "Verif.PlaneShell.C162_linear",
    "Verif.PlaneShell.C162_flat_partial",
    "Verif.PlaneShell.C162_newton_partial",
    "Verif.PlaneShell.C162_small_partial",
    "Verif.PlaneShell.C162_conservative_violated",
    "Verif.PlaneShell.C162_linear_violated",
    "Verif.PlaneShell.C162_close_partial"
   ],
   "note": "C162_derivative gives the derivative in all states: minus the assembled tangent minus the work of the rate of the third fundamental form. C162_flat_partial, C162_newton_partial and C162_small_partial hold without curvature or where the missing part is small. C162_close_partial: computed stretches of the extended material at moderate area ratios; convergence of the thickness iteration of the two other materials is not proved. C162_conservative_violated and C162_linear_violated: every thin cylinder of each of the three materials."
  },
  {
   "property": "C163",
   "status": "proved",
   "theorems": [
    "Verif.Thickness.C163_found",
    "Verif.Thickness.C163_close",
    "Verif.Thickness.C163_small"
   ],
   "note": "Convergence of the thickness iteration near the undeformed state from the strict derivative of the step (which vanishes there in the direction of the stretch); Newton's method with residual and tangent perturbed by the inner tolerance. Far from the undeformed state the iteration throws (C127, C161). Exact real arithmetic; planar sheets without prescribed displacements."
  },
  {
   "property": "C164",
   "status": "proved",
   "theorems": [
    "Verif.ThicknessShell.C164_close",
    "Verif.ThicknessShell.C164_plate"
   ],
   "note": "As C163, with one stretch per height: residual and tangent are smooth functions of state and stretches. The programs are treated on plates only, where the missing third fundamental form vanishes at rest; on curved shells even the exact system disagrees with its linear problem (C162). Exact real arithmetic, no prescribed displacements, dead loads."
  },
  {
   "property": "C165",
   "status": "proved",
   "theorems": [
    "Verif.Wrinkled.C165_forces",
    "Verif.Wrinkled.C165_gradient",
    "Verif.Wrinkled.C165_convex",
    "Verif.Wrinkled.C165_equilibrium",
    "Verif.Wrinkled.C165_error",
    "Verif.Wrinkled.C165_exists",
    "Verif.Wrinkled.C165_same",
    "Verif.Wrinkled.C165_unique",
    "Verif.Wrinkled.C165_sharp"
   ],
   "note": "The classification at the two heights is assumed to see the principal values of the membrane strain (`Seen`), as for membranes that stay flat; with bending the values at the heights differ. The angle of a wrinkled point is assumed to satisfy the two inequalities of the check (C141, C142 say when the search finds it).  SlackMultiplier 0. Dead loads. The tangent is not part of this claim (C166)."
  },
  {
   "property": "C166",
   "status": "partial",
   "theorems": [
    "Verif.Wrinkled.C166_moduli_partial",
    "Verif.Wrinkled.C166_tangent",
    "Verif.Wrinkled.C166_open",
    "Verif.Wrinkled.C166_semidefinite",
    "Verif.Wrinkled.C166_idle",
    "Verif.Wrinkled.C166_regular",
    "Verif.Wrinkled.C166_newton",
    "Verif.Wrinkled.C166_unique",
    "Verif.Wrinkled.C166_linear_violated"
   ],
   "note": "C166_moduli_partial is for the general variant of the wrapper (template argument linear = false, the default); C166_linear_violated shows that the variant for linear materials returns other matrices (minus sign in dfdE, l.868). The classification at the two heights is assumed to see the principal values of the membrane strain and the right angle (`Seen`), as in C165. SlackMultiplier 0. At kinks the stress has no derivative and nothing is said about the matrix. The radius of convergence depends on the equilibrium. Dead loads, exact arithmetic."
  },
  {
   "property": "C167",
   "status": "partial",
   "theorems": [
    "Verif.BucklingProgram.C167_exists",
    "Verif.BucklingProgram.C167_compression",
    "Verif.BucklingProgram.C167_first",
    "Verif.BucklingProgram.C167_compression_violated",
    "Verif.BucklingProgram.C167_spectra",
    "Verif.BucklingProgram.C167_dense_partial",
    "Verif.BucklingProgram.C167_reciprocal",
    "Verif.BucklingProgram.C167_unique",
    "Verif.BucklingProgram.C167_weyl",
    "Verif.BucklingProgram.C167_load",
    "Verif.BucklingProgram.C167_dense_violated"
   ],
   "note": "With Spectra the values are the critical factors up to sign (tension is applied, so minus the value is critical), with the order by stability; limits for small loads for shells of linear material. Violated without Spectra: Eigen's solver is called with the two matrices exchanged, so the program returns the reciprocals in reverse order (9/2 instead of 2/9 for a pulled sheet); the partial theorem says what these values mean, and C167_first how to read the first critical factor off them. Violated with Spectra under compression: the solver is called in shift-invert mode, which needs a positive definite second matrix, and has something to return exactly if the load stiffens every displacement, so never under a load that makes the structure buckle. The solvers are given by what they promise, and all eigenpairs are taken to be returned."
  },
  {
   "property": "C168",
   "status": "partial",
   "theorems": [
    "Verif.ModalProgram.C168_efficiency",
    "Verif.ModalProgram.C168_exists",
    "Verif.ModalProgram.C168_minmax",
    "Verif.ModalProgram.C168_positive",
    "Verif.ModalProgram.C168_refine",
    "Verif.ModalProgram.C168_estimate_partial",
    "Verif.ModalProgram.C168_double_violated"
   ],
   "note": "Min-max characterisation, monotonicity under refinement, existence and the exact estimate are proved for all nested bases on common quadrature points. Violated for double frequencies (which square and circular plates have): the solver may return a mode that is orthogonal to the coarse mode of the same number, and the program divides by zero; the partial theorem says exactly when a row exists and what it contains. The solvers are given by what they promise."
  },
  {
   "property": "C169",
   "status": "partial",
   "theorems": [
    "Verif.BucklingTable.C169_spectra",
    "Verif.BucklingTable.C169_dense_partial",
    "Verif.BucklingTable.C169_dense_violated",
    "Verif.BucklingTable.C169_efficiency"
   ],
   "note": "With Spectra the estimate is exact on flat plates with in-plane prestress. Violated without Spectra: eigenvectors are normalised with the linear matrix and the matrices are exchanged, so the estimate is another expression (proved exactly in the partial theorem) and can even have the opposite sign. Curved plates and moments are left out; there the estimate itself is wrong already (C100). The solvers are given by what they promise."
  },
  {
   "property": "C17",
   "status": "partial",
   "theorems": [
    "Verif.Geometry.C17_ratio_partial",
    "Verif.Geometry.C17_singular_reference_violated",
    "Verif.Geometry.C17_equal",
    "Verif.Geometry.C17_midsurface"
   ],
   "note": "Ratio right when reference metric is regular; singular reference divides by zero (violated)."
  },
  {
   "property": "C170",
   "status": "partial",
   "theorems": [
    "Verif.LinearTable.C170_component",
    "Verif.LinearTable.C170_exists",
    "Verif.LinearTable.C170_stiff",
    "Verif.LinearTable.C170_norm",
    "Verif.LinearTable.C170_loads_partial",
    "Verif.LinearTable.C170_efficiency",
    "Verif.LinearTable.C170_loads_violated"
   ],
   "note": "Exact for components of the displacement, with the second-order gap for the squared displacement, if there are no point loads. Violated with point loads: the program calls computeError with its default withLoads = false, so test case 1 (a point load only) prints the estimate 0 on every mesh. The solvers solve, quadrature points are common to both bases, Dirichlet values are 0 as in the example, the container of sides is empty as in the example; other goals are not linear in the displacement and are left out."
  },
  {
   "property": "C171",
   "status": "partial",
   "theorems": [
    "Verif.ParamText.C171_fixed",
    "Verif.ParamText.C171_scientific",
    "Verif.ParamText.C171_static_partial",
    "Verif.ParamText.C171_modal_partial",
    "Verif.ParamText.C171_buckling_partial",
    "Verif.ParamText.C171_thin_violated",
    "Verif.ParamText.C171_density_violated"
   ],
   "note": "Partial: the error bounds need a lower bound on modulus, thickness and density, and a Poisson ratio that the text does not change. Violated without it: `std::to_string` keeps six decimals, so a positive thickness below 5e-7 becomes 0 and the static problem has no solution (`C171_thin_violated`), and a density below 5e-7, such as 7.85e-9 for steel in tonnes and millimetres, gives a zero mass matrix (`C171_density_violated`). The values set in the programs are not affected."
  },
  {
   "property": "C172",
   "status": "partial",
   "theorems": [
    "Verif.OgdenReference.C172_incompressible",
    "Verif.OgdenReference.C172_compressible",
    "Verif.OgdenReference.C172_linear_partial",
    "Verif.OgdenReference.C172_undeformed",
    "Verif.OgdenReference.C172_stable",
    "Verif.OgdenReference.C172_young_partial",
    "Verif.OgdenReference.C172_young_violated",
    "Verif.OgdenReference.C172_untied_violated"
   ],
   "note": "Partial: the Ogden material has the small-strain stiffness of E and nu only if half the sum of mu_i alpha_i is the shear modulus, as for the parameters of the example and the tests. Violated otherwise (`C172_untied_violated`): E and nu are parameters of the Ogden material as well, but nothing compares them with mu_i and alpha_i. Violated as well: E is not the modulus of elasticity of the incompressible materials unless nu = 1/2 (`C172_young_violated`), and the program accepts any nu for them. Only the undeformed state is considered; the stress there is zero by C46."
  },
  {
   "property": "C18",
   "status": "proved",
   "theorems": [
    "Verif.Linear.C18_symmetries",
    "Verif.Linear.C18_matrix_symmetric",
    "Verif.Linear.C18_stress_is_matrix_times_strain",
    "Verif.Linear.C18_available"
   ],
   "note": "All constants, all symmetric metrics and strains."
  },
  {
   "property": "C19",
   "status": "proved",
   "theorems": [
    "Verif.Linear.C19_hooke",
    "Verif.Linear.C19_compliance",
    "Verif.Linear.C19_incompressible_rejected"
   ],
   "note": "All constants for which the tensor exists."
  },
  {
   "property": "C20",
   "status": "proved",
   "theorems": [
    "Verif.Linear.C20_positive_energy",
    "Verif.Linear.C20_matrix_form",
    "Verif.Linear.C20_surface_metric"
   ],
   "note": "E>0, -1<nu<1/2, positive definite metric."
  },
  {
   "property": "C21",
   "status": "partial",
   "theorems": [
    "Verif.Linear.C21_membrane_invariant",
    "Verif.Linear.C21_bending_invariant",
    "Verif.Linear.C21_planar_violated"
   ],
   "note": "3D surfaces: all regular reparametrisations, membrane and bending. Planar geometries: energy depends on the parametrisation because of the metric of C15 (violated)."
  },
  {
   "property": "C22",
   "status": "partial",
   "theorems": [
    "Verif.Linear.C22_outputs_violated",
    "Verif.Linear.C22_outputs_partial"
   ],
   "note": "Cauchy stress and principal stress directions raise an error (violated); other outputs evaluated."
  },
  {
   "property": "C23",
   "status": "proved",
   "theorems": [
    "Verif.Integrate.C23_constant",
    "Verif.Integrate.C23_linear"
   ],
   "note": "Interval integral over the thickness; all thicknesses, all moments."
  },
  {
   "property": "C24",
   "status": "proved",
   "theorems": [
    "Verif.Integrate.C24_exact",
    "Verif.Integrate.C24_agrees_with_closed_form",
    "Verif.Integrate.C24_agrees_with_constant",
    "Verif.Integrate.C24_bound_needed"
   ],
   "note": "Any rule exact to degree d (Gauss nodes of the core library are a hypothesis, two-point rule shown to satisfy it)."
  },
  {
   "property": "C25",
   "status": "proved",
   "theorems": [
    "Verif.Integrate.C25_stiffness",
    "Verif.Integrate.C25_resultants"
   ],
   "note": "All thicknesses, metrics, strains."
  },
  {
   "property": "C26",
   "status": "partial",
   "theorems": [
    "Verif.Integrate.C26_pstressM_violated",
    "Verif.Integrate.C26_pstressM_partial",
    "Verif.Integrate.C26_pstressN"
   ],
   "note": "Flexural principal stress always zero for materials constant through the thickness (violated)."
  },
  {
   "property": "C27",
   "status": "proved",
   "theorems": [
    "Verif.Composite.C27_layer_integrals",
    "Verif.Composite.C27_evaluator"
   ],
   "note": "All laminates: A, B, D are the through-thickness integrals of the ply stiffness."
  },
  {
   "property": "C28",
   "status": "proved",
   "theorems": [
    "Verif.Composite.C28_reverse",
    "Verif.Composite.C28_symmetric_no_coupling"
   ],
   "note": "All laminates."
  },
  {
   "property": "C29",
   "status": "proved",
   "theorems": [
    "Verif.Composite.C29_split",
    "Verif.Composite.C29_mass"
   ],
   "note": "All laminates and splits."
  },
  {
   "property": "C30",
   "status": "partial",
   "theorems": [
    "Verif.Composite.C30_coupling_violated",
    "Verif.Composite.C30_coupling_partial"
   ],
   "note": "Force and moment resultants leave out the coupling terms (violated for unsymmetric laminates); right when B vanishes."
  },
  {
   "property": "C31",
   "status": "proved",
   "theorems": [
    "Verif.Composite.C31_zero",
    "Verif.Composite.C31_compose",
    "Verif.Composite.C31_pi",
    "Verif.Composite.C31_strain",
    "Verif.Composite.C31_energy",
    "Verif.Composite.C31_stiffness_compose",
    "Verif.Composite.C31_isotropic"
   ],
   "note": "Rotation group, strain transformation, energy, isotropy; all angles."
  },
  {
   "property": "C32",
   "status": "partial",
   "theorems": [
    "Verif.Composite.C32_toSurface_partial",
    "Verif.Composite.C32_toSurface_violated"
   ],
   "note": "Surface transformation right for orthogonal tangents (partial); wrong for skew parametrisations (violated)."
  },
  {
   "property": "C33",
   "status": "partial",
   "theorems": [
    "Verif.Composite.C33_orthotropic",
    "Verif.Composite.C33_raw_violated",
    "Verif.Composite.C33_raw_partial",
    "Verif.Composite.C33_raw6"
   ],
   "note": "Orthotropic constants right under reciprocity; nine-entry constructor swaps G12 and G21 (violated), right when they agree; six-entry constructor right."
  },
  {
   "property": "C34",
   "status": "proved",
   "theorems": [
    "Verif.Transform.C34_tensor_law",
    "Verif.Transform.C34_inverse",
    "Verif.Transform.C34_inverse_orthonormal"
   ],
   "note": "All bases."
  },
  {
   "property": "C35",
   "status": "partial",
   "theorems": [
    "Verif.Transform.C35_spec2con_equals_spec2cov_violated",
    "Verif.Transform.C35_should_differ_violated",
    "Verif.Transform.C35_spec2con_partial"
   ],
   "note": "spec2con evaluates the covariant basis like spec2cov (violated); agrees for orthonormal bases."
  },
  {
   "property": "C36",
   "status": "proved",
   "theorems": [
    "Verif.Transform.C36_frame_orthonormal",
    "Verif.Transform.C36_cartcov",
    "Verif.Transform.C36_cartcon",
    "Verif.Transform.C36_metric_3x3",
    "Verif.Transform.C36_power"
   ],
   "note": "All regular surfaces."
  },
  {
   "property": "C37",
   "status": "partial",
   "theorems": [
    "Verif.TFT.C37_range",
    "Verif.TFT.C37_strain",
    "Verif.TFT.C37_stress",
    "Verif.TFT.C37_mixed",
    "Verif.TFT.C37_scale",
    "Verif.TFT.C37_principal_values",
    "Verif.TFT.C37_unknown_violated",
    "Verif.TFT.C37_known_partial"
   ],
   "note": "Characterisation of taut, slack and wrinkled for the three criteria including the relative tolerance 1e-12. An unknown criterion returns unwritten memory (violated)."
  },
  {
   "property": "C38",
   "status": "partial",
   "theorems": [
    "Verif.TFT.C38_no_normal",
    "Verif.TFT.C38_objective",
    "Verif.TFT.C38_uniaxial",
    "Verif.TFT.C38_taut_slack",
    "Verif.TFT.C38_wrinkling_strain",
    "Verif.TFT.C38_tension",
    "Verif.TFT.C38_acceptance_violated"
   ],
   "note": "Zero normal component, shear equals the searched function, uniaxial at a root, sign of the tension. The acceptance test doubles the shear strain twice and accepts compressive states (violated)."
  },
  {
   "property": "C39",
   "status": "partial",
   "theorems": [
    "Verif.TFT.C39_nonlinear_partial",
    "Verif.TFT.C39_linear_partial",
    "Verif.TFT.C39_symmetric_partial",
    "Verif.TFT.C39_linear_violated",
    "Verif.TFT.C39_symmetry_violated",
    "Verif.TFT.C39_nonlinear_violated"
   ],
   "note": "Derivative proved along every differentiable family of wrinkled states. Linear variant has a sign error (violated), nonlinear variant multiplies in transposed order (violated for strain-dependent matrices, right for constant ones)."
  },
  {
   "property": "C40",
   "status": "partial",
   "theorems": [
    "Verif.TFT.C40_violated",
    "Verif.TFT.C40_partial"
   ],
   "note": "Wrinkled points divide by the square root of the Jacobian (violated); taut and slack points right."
  },
  {
   "property": "C41",
   "status": "partial",
   "theorems": [
    "Verif.RootFind.C41_sound_violated",
    "Verif.RootFind.C41_bracket_violated",
    "Verif.RootFind.C41_complete_violated",
    "Verif.RootFind.C41_success_partial"
   ],
   "note": "Midpoint computed once as half the length and never updated: unsound, leaves the bracket, does not converge (three violations); partial statement about what success still means."
  },
  {
   "property": "C42",
   "status": "partial",
   "theorems": [
    "Verif.RootFind.C42_no_sign_change",
    "Verif.RootFind.C42_outcomes",
    "Verif.RootFind.C42_increasing_partial",
    "Verif.RootFind.C42_decreasing_violated"
   ],
   "note": "No division by zero for any input; sound for functions increasing across the bracket; for decreasing ones only the values are swapped (violated)."
  },
  {
   "property": "C43",
   "status": "partial",
   "theorems": [
    "Verif.TFT.C43_stale_violated",
    "Verif.TFT.C43_violated",
    "Verif.TFT.C43_partial",
    "Verif.TFT.C43_list_partial",
    "Verif.TFT.C43_single"
   ],
   "note": "Angle variable survives from the previous column when one end of the interval is exactly zero (violated); independent otherwise."
  },
  {
   "property": "C44",
   "status": "proved",
   "theorems": [
    "Verif.Hyper.C44_NH_stress",
    "Verif.Hyper.C44_NH_tangent",
    "Verif.Hyper.C44_MR_stress",
    "Verif.Hyper.C44_MR_tangent",
    "Verif.Hyper.C44_metric_hypothesis"
   ],
   "note": "Neo-Hookean and Mooney-Rivlin, stress and tangent, all metrics with non-zero area ratio."
  },
  {
   "property": "C45",
   "status": "proved",
   "theorems": [
    "Verif.Hyper.C45_NH",
    "Verif.Hyper.C45_MR"
   ],
   "note": "Derivative along every differentiable curve of symmetric metrics with non-zero determinant."
  },
  {
   "property": "C46",
   "status": "proved",
   "theorems": [
    "Verif.Hyper.C46_NH",
    "Verif.Hyper.C46_MR",
    "Verif.Hyper.C46_compressible",
    "Verif.Spectral.C46_spectral"
   ],
   "note": "Analytical incompressible and compressible models, all metrics; spectral models incl. Ogden in the principal frame."
  },
  {
   "property": "C47",
   "status": "partial",
   "theorems": [
    "Verif.Hyper.C47_incompressible",
    "Verif.Hyper.C47_incompressible_half",
    "Verif.Hyper.C47_incompressible_other_violated",
    "Verif.Hyper.C47_compressible",
    "Verif.Hyper.C47_linear",
    "Verif.Hyper.C47_SvK"
   ],
   "note": "Compressible models and SvK equal Hooke; incompressible models equal Hooke for nu=1/2. For nu different from 1/2 the incompressible tangent is neither Hooke with nu nor with 1/2 (violated)."
  },
  {
   "property": "C48",
   "status": "proved",
   "theorems": [
    "Verif.Hyper.C48_incompressible",
    "Verif.Hyper.C48_compressible",
    "Verif.Hyper.C48_condensed",
    "Verif.Hyper.C48_matrix"
   ],
   "note": "All analytical models, condensed tangents and the 3x3 matrix."
  },
  {
   "property": "C49",
   "status": "proved",
   "theorems": [
    "Verif.Hyper.C49_NH",
    "Verif.Hyper.C49_MR",
    "Verif.Hyper.C49_NHext",
    "Verif.Hyper.C49_condensed"
   ],
   "note": "Three compressible models, stress and tangent, also condensed."
  },
  {
   "property": "C50",
   "status": "proved",
   "theorems": [
    "Verif.Hyper.C50_NHext",
    "Verif.Hyper.C50_NH",
    "Verif.Hyper.C50_MR"
   ],
   "note": "In-plane and thickness directions along every differentiable curve."
  },
  {
   "property": "C51",
   "status": "proved",
   "theorems": [
    "Verif.Hyper.C51_condensation",
    "Verif.Hyper.C51_models",
    "Verif.Hyper.C51_no_thickness"
   ],
   "note": "Any stress law with non-zero thickness stiffness; instantiated for the three models; thickness row and column of the condensed tangent vanish."
  },
  {
   "property": "C52",
   "status": "partial",
   "theorems": [
    "Verif.Newton.C52_return",
    "Verif.Newton.C52_otherwise",
    "Verif.Newton.C52_exact",
    "Verif.Newton.C52_reference",
    "Verif.Newton.C52_NHext_converges",
    "Verif.Newton.C52_positive_violated",
    "Verif.Newton.C52_misses_state"
   ],
   "note": "Return residual, error otherwise, exact Newton step, convergence for the extended neo-Hookean law near the solution. Returned stretch may be negative with huge normal stress (violated)."
  },
  {
   "property": "C53",
   "status": "proved",
   "theorems": [
    "Verif.Spectral.C53_NH_stress",
    "Verif.Spectral.C53_NH_tangent",
    "Verif.Spectral.C53_NH_window",
    "Verif.Spectral.C53_MR",
    "Verif.Spectral.C53_compressible",
    "Verif.Spectral.C53_energy_NH",
    "Verif.Spectral.C53_energy_MR",
    "Verif.Spectral.C53_energy_OG",
    "Verif.Spectral.C53_energy_NHext",
    "Verif.Spectral.C53_energy_NHc",
    "Verif.Spectral.C53_energy_MRc",
    "Verif.Spectral.C53_energy_OGc",
    "Verif.Spectral.C53_principal_incompressible",
    "Verif.Spectral.C53_principal_condensed",
    "Verif.Spectral.C53_tangent_incompressible",
    "Verif.Spectral.C53_tangent_condensed",
    "Verif.Spectral.C53_limit_compressible",
    "Verif.Spectral.C53_limit_incompressible",
    "Verif.Spectral.C53_models"
   ],
   "note": "Seven coded energies: derivatives exact; tangent is the derivative of the stress for any energy (frame differentiable); limit branch is the limit; agreement with five analytical models at every regular point with stretches equal or apart by the test tolerance 1e-14, and error factor inside that window. Eigenvalue solver is a hypothesis."
  },
  {
   "property": "C54",
   "status": "partial",
   "theorems": [
    "Verif.Newton.C54_violated",
    "Verif.Newton.C54_witness_violated",
    "Verif.Newton.C54_partial"
   ],
   "note": "Compressible materials: the computed values go to a local variable and zero is returned (violated); the discarded value and the incompressible case are right."
  },
  {
   "property": "C55",
   "status": "partial",
   "theorems": [
    "Verif.Newton.C55_partial",
    "Verif.Newton.C55_first_height_violated",
    "Verif.Newton.C55_violated"
   ],
   "note": "Principal stretches at every height read the thickness stretch of the first height (violated); right for one height and in the stress evaluation."
  },
  {
   "property": "C56",
   "status": "partial",
   "theorems": [
    "Verif.Newton.C56_partial",
    "Verif.Newton.C56_halved_violated",
    "Verif.Newton.C56_violated"
   ],
   "note": "Shear component is halved (violated); right without shear."
  },
  {
   "property": "C57",
   "status": "proved",
   "theorems": [
    "Verif.Hyper.C57_derivative",
    "Verif.Hyper.C57_symmetric"
   ],
   "note": "All metrics and directions."
  },
  {
   "property": "C58",
   "status": "partial",
   "theorems": [
    "Verif.Spectral.C58_partial",
    "Verif.Spectral.C58_violated",
    "Verif.Spectral.C58_stress_violated"
   ],
   "note": "Right whenever the shortcut is not taken; the shortcut only tests the trace and reports unit stretches for sheared states (violated), with zero stress as a consequence."
  },
  {
   "property": "C59",
   "status": "proved",
   "theorems": [
    "Verif.Hyper.C59_split",
    "Verif.Hyper.C59_split_unique",
    "Verif.Hyper.C59_neoHookean",
    "Verif.Hyper.C59_limit",
    "Verif.Spectral.C59_ogden"
   ],
   "note": "Split, uniqueness, limit c2=0, one-term Ogden."
  },
  {
   "property": "C60",
   "status": "partial",
   "theorems": [
    "Verif.StressFun.C60_partial",
    "Verif.StressFun.C60_first_patch_partial",
    "Verif.StressFun.C60_field_partial",
    "Verif.StressFun.C60_always_first_violated",
    "Verif.StressFun.C60_violated",
    "Verif.StressFun.C60_total_violated"
   ],
   "note": "All kinds but principal stress and its directions (always first patch, violated) and the unimplemented total."
  },
  {
   "property": "C61",
   "status": "partial",
   "theorems": [
    "Verif.StressFun.C61_well_defined",
    "Verif.StressFun.C61_zero_iff",
    "Verif.StressFun.C61_homogeneous",
    "Verif.StressFun.C61_rotation",
    "Verif.StressFun.C61_uniaxial_shear",
    "Verif.StressFun.C61_outer_fibre_partial",
    "Verif.StressFun.C61_flexural_factor_partial",
    "Verif.StressFun.C61_flexural_violated"
   ],
   "note": "Formula properties proved; flexural part is evaluated at height 1 instead of half the thickness (violated), exact factor proved. Linear material."
  },
  {
   "property": "C62",
   "status": "partial",
   "theorems": [
    "Verif.FunSum.C62_eval",
    "Verif.FunSum.C62_order",
    "Verif.FunSum.C62_derivative",
    "Verif.FunSum.C62_support",
    "Verif.FunSum.C62_construct",
    "Verif.FunSum.C62_empty_violated",
    "Verif.FunSum.C62_pieces_violated"
   ],
   "note": "Any list of functions and pieces; empty sums and unequal piece counts are undefined behaviour (violated)."
  },
  {
   "property": "C63",
   "status": "proved",
   "theorems": [
    "Verif.Variation.C63_exact",
    "Verif.Variation.C63_orthogonal",
    "Verif.Variation.C63_linear"
   ],
   "note": "Exact derivative, orthogonality, linearity in the field."
  },
  {
   "property": "C64",
   "status": "partial",
   "theorems": [
    "Verif.Variation.C64_exact",
    "Verif.Variation.C64_symmetric",
    "Verif.Variation.C64_contracted",
    "Verif.Variation.C64_fields_partial",
    "Verif.Variation.C64_fields_violated",
    "Verif.Variation.C64_fields_symmetry_violated",
    "Verif.Variation.C64_space"
   ],
   "note": "Version for spaces exact, symmetric; version for two given fields has a wrong mixed term (violated), right when the mixed cross products coincide."
  },
  {
   "property": "C65",
   "status": "partial",
   "theorems": [
    "Verif.Variation.C65_tangent",
    "Verif.Variation.C65_outer",
    "Verif.Variation.C65_side",
    "Verif.Variation.C65_outer2_partial",
    "Verif.Variation.C65_symmetric",
    "Verif.Variation.C65_outer2_violated"
   ],
   "note": "Tangent and outer normal first variations exact for all speeds; second variation of the outer normal exact only for unit parametric tangents (violated otherwise)."
  },
  {
   "property": "C66",
   "status": "proved",
   "theorems": [
    "Verif.Variation.C66_membrane",
    "Verif.Variation.C66_bending",
    "Verif.Variation.C66_membrane2",
    "Verif.Variation.C66_bending2",
    "Verif.Variation.C66_force",
    "Verif.Variation.C66_stiffness",
    "Verif.Variation.C66_symmetric",
    "Verif.Variation.C66_linear",
    "Verif.Variation.C66_rigid",
    "Verif.Variation.C66_membrane_only"
   ],
   "note": "Strain variations, energy gradient, stiffness as derivative of the force, symmetry, semi-definiteness and rigid rotations; flat, symmetrize and tangent of G+Smo are assumed as documented."
  },
  {
   "property": "C67",
   "status": "partial",
   "theorems": [
    "Verif.Assembler.C67_loads_partial",
    "Verif.Assembler.C67_noloads_partial",
    "Verif.Assembler.C67_stale_violated",
    "Verif.Assembler.C67_pressure_violated"
   ],
   "note": "rhs() is right for every history while point loads are registered, or if none ever were; after point loads are removed it stays at the old vector, and later pressure vectors are hidden (violated)."
  },
  {
   "property": "C68",
   "status": "partial",
   "theorems": [
    "Verif.Assembler.C68_partial",
    "Verif.Assembler.C68_full_partial",
    "Verif.Assembler.C68_mass_partial",
    "Verif.Assembler.C68_mass_violated",
    "Verif.Assembler.C68_pressure_violated",
    "Verif.Assembler.C68_foundation_violated",
    "Verif.Assembler.C68_copy_violated"
   ],
   "note": "Right for all routines from every state except the mass matrix (keeps the earlier or uninitialised status), the registered pressure and foundation vectors (always Success) and copies (uninitialised)."
  },
  {
   "property": "C69",
   "status": "partial",
   "theorems": [
    "Verif.Assembler.C69_partial",
    "Verif.Assembler.C69_options_partial",
    "Verif.Assembler.C69_geometry_violated",
    "Verif.Assembler.C69_vector_violated",
    "Verif.Assembler.C69_continuity_violated"
   ],
   "note": "Loads stay active under all calls that do not touch geometry, basis or continuity; those switch them off (violated)."
  },
  {
   "property": "C70",
   "status": "partial",
   "theorems": [
    "Verif.Assembler.C70_partial",
    "Verif.Assembler.C70_user",
    "Verif.Assembler.C70_idempotent",
    "Verif.Assembler.C70_unknown_partial",
    "Verif.Assembler.C70_unknown_violated",
    "Verif.Assembler.C70_add_violated",
    "Verif.Assembler.C70_replaced_violated"
   ],
   "note": "Coverage, user assignments, idempotence proved; unknown defaults pass unnoticed if all interfaces are assigned, and repeated add calls replace (violated)."
  },
  {
   "property": "C71",
   "status": "partial",
   "theorems": [
    "Verif.WeakForms.C71_vanish_partial",
    "Verif.WeakForms.C71_tangent_partial",
    "Verif.WeakForms.C71_linear_partial",
    "Verif.WeakForms.C71_planar_partial",
    "Verif.WeakForms.C71_planar_violated",
    "Verif.WeakForms.C71_definite_violated",
    "Verif.WeakForms.C71_energy_violated"
   ],
   "note": "Spatial nonlinear and linear terms consistent; planar linear matrix and vector differ by the factor, and the contribution is negative definite (violated)."
  },
  {
   "property": "C72",
   "status": "partial",
   "theorems": [
    "Verif.WeakForms.C72_tangent_partial",
    "Verif.WeakForms.C72_energy_partial",
    "Verif.WeakForms.C72_matrix",
    "Verif.WeakForms.C72_planar_violated",
    "Verif.WeakForms.C72_measure_violated"
   ],
   "note": "Symmetric semi-definite matrix everywhere; spatial terms are the gradient and tangent of the jump energy; planar nonlinear vector has the opposite sign, planar linear matrix has the measure squared (violated)."
  },
  {
   "property": "C73",
   "status": "partial",
   "theorems": [
    "Verif.WeakForms.C73_out_force",
    "Verif.WeakForms.C73_out_tangent",
    "Verif.WeakForms.C73_out_symmetric",
    "Verif.WeakForms.C73_in_force",
    "Verif.WeakForms.C73_linear",
    "Verif.WeakForms.C73_reference",
    "Verif.WeakForms.C73_in_partial",
    "Verif.WeakForms.C73_in_error_partial",
    "Verif.WeakForms.C73_in_violated",
    "Verif.WeakForms.C73_in_symmetry_violated"
   ],
   "note": "Out-of-plane part exact for all regular interfaces and quadratures; in-plane vector exact, in-plane matrix exact in the reference state (unit parametric tangents), exact error elsewhere; wrong and not symmetric for folded interfaces (violated)."
  },
  {
   "property": "C74",
   "status": "partial",
   "theorems": [
    "Verif.WeakForms.C74_reference_partial",
    "Verif.WeakForms.C74_energy_partial",
    "Verif.WeakForms.C74_vector_partial",
    "Verif.WeakForms.C74_vector_violated",
    "Verif.WeakForms.C74_violated",
    "Verif.WeakForms.C74_second_violated"
   ],
   "note": "Right in the reference state for the matrix; the clamping vector has zero derivative there for every surface, and the second-order term of the matrix is wrong (violated)."
  },
  {
   "property": "C75",
   "status": "partial",
   "theorems": [
    "Verif.WeakForms.C75_pressure_partial",
    "Verif.WeakForms.C75_load_partial",
    "Verif.WeakForms.C75_foundation_partial",
    "Verif.WeakForms.C75_foundation_violated",
    "Verif.WeakForms.C75_sign_violated"
   ],
   "note": "Pressure terms consistent for a given measure; sign of the foundation vector opposite to its matrix (violated)."
  },
  {
   "property": "C76",
   "status": "partial",
   "theorems": [
    "Verif.Solution.C76_field",
    "Verif.Solution.C76_roundtrip",
    "Verif.Solution.C76_inverse",
    "Verif.Solution.C76_geometry_partial",
    "Verif.Solution.C76_basis_violated",
    "Verif.Solution.C76_mapped_partial",
    "Verif.Solution.C76_mapped_violated",
    "Verif.Solution.C76_mapped_ub_violated"
   ],
   "note": "Every complete numbering with coupled and eliminated functions, both directions; geometries on another basis are undefined behaviour and mapped bases do not round trip (violated)."
  },
  {
   "property": "C77",
   "status": "partial",
   "theorems": [
    "Verif.Solution.C77_partial",
    "Verif.Solution.C77_violated"
   ],
   "note": "The geometry passed in is ignored (violated); right only for the undeformed geometry."
  },
  {
   "property": "C78",
   "status": "proved",
   "theorems": [
    "Verif.Solution.C78_union",
    "Verif.Solution.C78_order",
    "Verif.Solution.C78_overlap",
    "Verif.Solution.C78_disjoint",
    "Verif.Solution.C78_balance",
    "Verif.Solution.C78_energy"
   ],
   "note": "Union, order, repetition, corners, disjoint sides, equilibrium of the whole boundary, and the sign (minus the energy derivative)."
  },
  {
   "property": "C79",
   "status": "proved",
   "theorems": [
    "Verif.Loads.C79_exact",
    "Verif.Loads.C79_additive",
    "Verif.Loads.C79_order",
    "Verif.Loads.C79_eliminated",
    "Verif.Loads.C79_total",
    "Verif.Loads.C79_work",
    "Verif.Loads.C79_short"
   ],
   "note": "Linear, order independent, total equals the value under a partition of unity; virtual work at the point of application, parametric or physical."
  },
  {
   "property": "C80",
   "status": "partial",
   "theorems": [
    "Verif.Assembler.C80_space",
    "Verif.Assembler.C80_iff_partial",
    "Verif.Assembler.C80_partial",
    "Verif.Assembler.C80_pointer_violated",
    "Verif.Assembler.C80_copy_violated",
    "Verif.Assembler.C80_move_partial",
    "Verif.Assembler.C80_move_violated"
   ],
   "note": "Exact condition for setBasis; holds for container-built assemblers without copies; violated for the pointer constructor, for copies and for moves."
  },
  {
   "property": "C81",
   "status": "partial",
   "theorems": [
    "Verif.Queries.C81_area",
    "Verif.Queries.C81_norm",
    "Verif.Queries.C81_mean_partial",
    "Verif.Queries.C81_mean_violated",
    "Verif.Queries.C81_energy_partial",
    "Verif.Queries.C81_translation",
    "Verif.Queries.C81_energy_violated",
    "Verif.Queries.C81_negative_violated",
    "Verif.Queries.C81_deformation_partial",
    "Verif.Queries.C81_deformation_violated"
   ],
   "note": "Area, norm of a translation; energy formula pairs displacement with stress resultants (not translation invariant, can be negative), deformation norm of a geometry with itself is positive, norm mixes deformed and undeformed areas (violated)."
  },
  {
   "property": "C82",
   "status": "partial",
   "theorems": [
    "Verif.Loads.C82_partial",
    "Verif.Loads.C82_apply_partial",
    "Verif.Loads.C82_violated"
   ],
   "note": "_applyMass is right when called, but no routine calls it: assembleMass ignores point masses (violated)."
  },
  {
   "property": "C83",
   "status": "partial",
   "theorems": [
    "Verif.StressFun.C83_membrane",
    "Verif.StressFun.C83_flexural_partial",
    "Verif.StressFun.C83_flexural_excess_partial",
    "Verif.StressFun.C83_flexural_violated"
   ],
   "note": "Membrane output right; flexural output doubles the twist before the tensor transformation (violated), right without twist, excess proved."
  },
  {
   "property": "C84",
   "status": "partial",
   "theorems": [
    "Verif.StressFun.C84_partial",
    "Verif.StressFun.C84_kinds_partial",
    "Verif.StressFun.C84_tft_partial",
    "Verif.StressFun.C84_laminate_partial",
    "Verif.StressFun.C84_laminate_violated",
    "Verif.StressFun.C84_displacement_violated",
    "Verif.StressFun.C84_directions_violated"
   ],
   "note": "Right for spatial shells and every kind other than the principal stress directions, for linear, nonlinear and (with two refusals) wrapped materials; planar displacement, directions and most kinds of a laminate violated."
  },
  {
   "property": "C85",
   "status": "partial",
   "theorems": [
    "Verif.FunSum.C85_print_violated",
    "Verif.FunSum.C85_print_oob_violated",
    "Verif.FunSum.C85_print_partial",
    "Verif.FunSum.C85_copy_partial",
    "Verif.FunSum.C85_copy_violated"
   ],
   "note": "Print skips piece 0 and leaves the vector; copies keep pointing to the original (violated); copy right while the original lives."
  },
  {
   "property": "C86",
   "status": "partial",
   "theorems": [
    "Verif.Assembler.C86_partial",
    "Verif.Assembler.C86_uncoupled_partial",
    "Verif.Assembler.C86_default_violated",
    "Verif.Assembler.C86_strong_violated",
    "Verif.Assembler.C86_uncoupled_violated"
   ],
   "note": "Holds for weak C0 interfaces and for continuous spaces; default C1 coupling and the strong lists leave the displacement uncoupled, and uncoupled is ignored in continuous spaces (violated). Matching of degrees of freedom is done by G+Smo (assumed)."
  },
  {
   "property": "C87",
   "status": "partial",
   "theorems": [
    "Verif.Queries.C87_C0",
    "Verif.Queries.C87_G1",
    "Verif.Queries.C87_G1_parameters",
    "Verif.Queries.C87_gauss",
    "Verif.Queries.C87_mean_partial",
    "Verif.Queries.C87_conforming",
    "Verif.Queries.C87_normal_violated",
    "Verif.Queries.C87_mean_violated",
    "Verif.Queries.C87_scale_violated"
   ],
   "note": "C0, G1 and Gauss curvature errors right; normal error depends on the parametrisation, mean curvature error on the orientation and is twice the curvature (violated)."
  },
  {
   "property": "C88",
   "status": "partial",
   "theorems": [
    "Verif.Queries.C88_partial",
    "Verif.Queries.C88_same_violated",
    "Verif.Queries.C88_violated"
   ],
   "note": "Right for a single interface; otherwise all interfaces get the class of the sum (violated). The test is not called by the library at present."
  },
  {
   "property": "C89",
   "status": "partial",
   "theorems": [
    "Verif.Layout.C89_violated",
    "Verif.Layout.C89_partial"
   ],
   "note": "Violated for two or more points of a compressible material; right for one point. Incompressible materials use the base class implementation, which is covered by C09."
  },
  {
   "property": "C90",
   "status": "partial",
   "theorems": [
    "Verif.DWR.C90_domain_partial",
    "Verif.DWR.C90_linear_partial",
    "Verif.DWR.C90_principal_partial",
    "Verif.DWR.C90_pstress_partial",
    "Verif.DWR.C90_shear_violated",
    "Verif.DWR.C90_eigen_violated",
    "Verif.DWR.C90_membrane_stress_partial",
    "Verif.DWR.C90_flexural_stress_violated",
    "Verif.DWR.C90_height_violated"
   ],
   "note": "All goals without principal directions, all components, any rule; for the linear material the hypothesis on the moduli is proved. Principal goals: components 0, 1, 9 in orthonormal coordinates. Missing or violated: shear component of the stretch, FlexuralStress and heights other than 0 for non-linear materials, Modal and Buckling."
  },
  {
   "property": "C91",
   "status": "partial",
   "theorems": [
    "Verif.DWR.C91_boundary_partial",
    "Verif.DWR.C91_force_violated",
    "Verif.DWR.C91_flexural_violated"
   ],
   "note": "Right except for a component of MembraneForce (assembly error) and all components of FlexuralStrain (violated)."
  },
  {
   "property": "C92",
   "status": "partial",
   "theorems": [
    "Verif.DWR.C92_points_partial",
    "Verif.DWR.C92_stretch_component_violated",
    "Verif.DWR.C92_stretch_violated",
    "Verif.DWR.C92_pstress_violated",
    "Verif.DWR.C92_force_violated"
   ],
   "note": "Right for the goals without principal directions except a component of MembraneForce; stretches and principal stresses violated."
  },
  {
   "property": "C93",
   "status": "partial",
   "theorems": [
    "Verif.DWR.C93_displacement_partial",
    "Verif.DWR.C93_points_violated",
    "Verif.DWR.C93_boundary_partial",
    "Verif.DWR.C93_stretch_violated",
    "Verif.DWR.C93_strain_violated"
   ],
   "note": "The displacement on the domain and along a side is independent of the parametrisation; points, stretches and strains violated."
  },
  {
   "property": "C94",
   "status": "partial",
   "theorems": [
    "Verif.DWR.C94_residual_partial",
    "Verif.DWR.C94_exact_partial",
    "Verif.DWR.C94_loads_violated",
    "Verif.DWR.C94_neumann_violated",
    "Verif.DWR.C94_pressure_violated"
   ],
   "note": "Residual of the difference of the duals for dead loads, and exactness for linear Galerkin solutions; point loads (without the flag), shell tractions and pressure are missing in the code (violated)."
  },
  {
   "property": "C95",
   "status": "partial",
   "theorems": [
    "Verif.DWR.C95_sum_partial",
    "Verif.DWR.C95_neumann_violated"
   ],
   "note": "Right without boundary tractions and with every load inside the mesh; tractions enter neither the element errors nor the error reported with them (violated)."
  },
  {
   "property": "C96",
   "status": "partial",
   "theorems": [
    "Verif.DWR.C96_own_patch_partial",
    "Verif.DWR.C96_violated"
   ],
   "note": "Right if the parametric point lies in elements of its own patch only; with several patches the elements of earlier patches get most of the load (violated)."
  },
  {
   "property": "C97",
   "status": "partial",
   "theorems": [
    "Verif.DWR.C97_nonneg_partial",
    "Verif.DWR.C97_neumann_violated",
    "Verif.DWR.C97_loads_violated"
   ],
   "note": "Right without tractions and loads; these are added unsquared (violated)."
  },
  {
   "property": "C98",
   "status": "partial",
   "theorems": [
    "Verif.DWR.C98_history_partial",
    "Verif.DWR.C98_dofs_violated"
   ],
   "note": "Total and element-wise estimates; the function-wise ones return the list and the error of an earlier computation (violated)."
  },
  {
   "property": "C99",
   "status": "partial",
   "theorems": [
    "Verif.DWR.C99_exact_partial",
    "Verif.DWR.C99_residual_partial",
    "Verif.DWR.C99_norm",
    "Verif.DWR.C99_elements_partial",
    "Verif.DWR.C99_elements_violated",
    "Verif.DWR.C99_dofs_violated"
   ],
   "note": "Residual form for all fields, exactness for eigenpairs, norm; the element errors miss the difference of the eigenvalues and the function-wise mode returns stale values (violated)."
  }
 ]
}