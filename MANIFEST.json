{
 "claims": [
  {
   "property": "C01",
   "status": "proved",
   "theorems": [
    "Zoidberg.Weights.C01_cell_numbers_bijective",
    "Zoidberg.Weights.C01_narrow"
   ],
   "note": "C01_narrow shows why 2*MXG <= nx is needed."
  },
  {
   "property": "C02",
   "status": "proved",
   "theorems": [
    "Zoidberg.Weights.C02_numbering_order",
    "Zoidberg.Weights.C02_evolving_count",
    "Zoidberg.Weights.C02_narrow"
   ],
   "note": "C02_narrow: also for nx < 2*MXG."
  },
  {
   "property": "C03",
   "status": "proved",
   "theorems": [
    "Zoidberg.Weights.C03_boundary_iff_escape",
    "Zoidberg.Weights.C03_all"
   ],
   "note": "C03_all: for every number of guard cells."
  },
  {
   "property": "C04",
   "status": "proved",
   "theorems": [
    "Zoidberg.Weights.C04_leg_numbers_bijective",
    "Zoidberg.Weights.C04_rows_per_cell"
   ],
   "note": ""
  },
  {
   "property": "C05",
   "status": "proved",
   "theorems": [
    "Zoidberg.Weights.C05_leg_weights_sum"
   ],
   "note": ""
  },
  {
   "property": "C06",
   "status": "proved",
   "theorems": [
    "Zoidberg.Weights.C06_csr_faithful"
   ],
   "note": ""
  },
  {
   "property": "C07",
   "status": "proved",
   "theorems": [
    "Zoidberg.Weights.C07_history_additive"
   ],
   "note": ""
  },
  {
   "property": "C08",
   "status": "proved",
   "theorems": [
    "Zoidberg.Weights.C08_catmullRom",
    "Zoidberg.Weights.C08_not_cubic"
   ],
   "note": "Weights sum to 1 and reproduce quadratics. Reproduction of cubics is refuted by C08_not_cubic."
  },
  {
   "property": "C09",
   "status": "proved",
   "theorems": [
    "Zoidberg.Weights.C09_shift_weights"
   ],
   "note": ""
  },
  {
   "property": "C10",
   "status": "proved",
   "theorems": [
    "Zoidberg.Weights.C10_assembly_succeeds",
    "Zoidberg.Weights.C10_iff"
   ],
   "note": "C10_iff: weights are accepted exactly if MXG <= nx."
  },
  {
   "property": "C11",
   "status": "proved",
   "theorems": [
    "Zoidberg.Weights.C11_row_columns"
   ],
   "note": ""
  },
  {
   "property": "C12",
   "status": "proved",
   "theorems": [
    "Zoidberg.Weights.C12_row_sums"
   ],
   "note": ""
  },
  {
   "property": "C13",
   "status": "partial",
   "theorems": [
    "Zoidberg.Weights.C13_row_any_z",
    "Zoidberg.Weights.C13_single_iff",
    "Zoidberg.Weights.C13_fails_for_negative_z",
    "Zoidberg.Weights.C13_row_is_interpolation_partial"
   ],
   "note": "C13_row_any_z: for all z the row is the average of interpolations with the base int(z). So the claim holds where the mapped z indices of the staying sub-samples are non-negative (C13_row_is_interpolation_partial), and for a single sample exactly where z is not negative or is whole (C13_single_iff, at least four points in z). For other negative z it is false of the code (int() truncates toward zero): refuted. RectangularPoloidalGrid.findIndex can return negative z."
  },
  {
   "property": "C14",
   "status": "partial",
   "theorems": [
    "Zoidberg.Weights.C14_single_iff",
    "Zoidberg.Weights.C14_period_partial",
    "Zoidberg.Weights.C14_fails_for_negative_z"
   ],
   "note": "C14_period_partial: the whole operator construction is invariant when every mapped z index stays on the same side of zero, or is whole. C14_single_iff: for a single sample a row is unchanged exactly then. C14_fails_for_negative_z is an example of the others."
  },
  {
   "property": "C15",
   "status": "proved",
   "theorems": [
    "Zoidberg.Weights.C15_partial_marks"
   ],
   "note": ""
  },
  {
   "property": "C16",
   "status": "proved",
   "theorems": [
    "Zoidberg.Weights.C16_filter_single_leg"
   ],
   "note": ""
  },
  {
   "property": "C17",
   "status": "partial",
   "theorems": [
    "Zoidberg.Weights.C17_iff",
    "Zoidberg.Weights.C17_boundary_leg_iff_centre_partial",
    "Zoidberg.Weights.C17_leg_implies_centre_partial",
    "Zoidberg.Weights.C17_fails"
   ],
   "note": "False of the code in both modes (C17_fails). C17_iff gives the exact condition. Holds if the centre is one of the sub-samples; in partial mode a boundary leg always implies an escaping centre."
  },
  {
   "property": "C18",
   "status": "proved",
   "theorems": [
    "Zoidberg.Weights.C18_returned_dictionary",
    "Zoidberg.Weights.C18_same_object",
    "Zoidberg.Weights.C18_content"
   ],
   "note": "C18_same_object and C18_content use a model with addresses (Model/ModifyMapsMem.lean): the result is the dictionary that was passed in, no other dictionary changes, and the content is that of the model without addresses if no two names share an array."
  },
  {
   "property": "C19",
   "status": "proved",
   "theorems": [
    "Zoidberg.C19_periodic_lookup",
    "Zoidberg.C19_periodic_shift"
   ],
   "note": ""
  },
  {
   "property": "C20",
   "status": "proved",
   "theorems": [
    "Zoidberg.C20_ordered"
   ],
   "note": ""
  },
  {
   "property": "C21",
   "status": "proved",
   "theorems": [
    "Zoidberg.C21_ends"
   ],
   "note": ""
  },
  {
   "property": "C22",
   "status": "partial",
   "theorems": [
    "Zoidberg.C22_iff",
    "Zoidberg.C22_midpoint_partial",
    "Zoidberg.C22_fails_elsewhere"
   ],
   "note": "C22_iff: true exactly for f = 1/2, the only fraction make_maps uses, or slices with the same y. For other fractions the code interpolates with 1-f: refuted."
  },
  {
   "property": "C23",
   "status": "proved",
   "theorems": [
    "Zoidberg.C23_jacobian",
    "Zoidberg.C23_succeeds_iff",
    "Zoidberg.C23_components"
   ],
   "note": ""
  },
  {
   "property": "C24",
   "status": "proved",
   "theorems": [
    "Zoidberg.C24_single_slice",
    "Zoidberg.C24_uniform",
    "Zoidberg.C24_increasing"
   ],
   "note": ""
  },
  {
   "property": "C25",
   "status": "partial",
   "theorems": [
    "Zoidberg.C25_iff_uniform_ends_partial",
    "Zoidberg.C25_fails"
   ],
   "note": "False of the code for non-uniform spacing (C25_fails); the end values are right exactly when the two spacings at the end agree."
  },
  {
   "property": "C26",
   "status": "proved",
   "theorems": [
    "Zoidberg.C26_uniform",
    "Zoidberg.C26_periodic_steps"
   ],
   "note": ""
  },
  {
   "property": "C27",
   "status": "partial",
   "theorems": [
    "Zoidberg.C27_iff",
    "Zoidberg.C27_cylindrical_values_partial",
    "Zoidberg.C27_cartesian_history_partial",
    "Zoidberg.C27_fails",
    "Zoidberg.C27_fails_for_grid_metric"
   ],
   "note": "Values returned in cylindrical coordinates are the same at every call; in Cartesian coordinates the n-th call returns the component scaled n times (closed form). The general claim is false of the code: refuted. C27_iff: in Cartesian coordinates exactly when |B| = |By| or B = 0 at each point."
  },
  {
   "property": "C28",
   "status": "proved",
   "theorems": [
    "Zoidberg.C28_reciprocal_and_bounded",
    "Zoidberg.C28_base_class"
   ],
   "note": ""
  },
  {
   "property": "C29",
   "status": "proved",
   "theorems": [
    "Zoidberg.C29_cache_reset",
    "Zoidberg.C29_history"
   ],
   "note": ""
  },
  {
   "property": "C30",
   "status": "proved",
   "theorems": [
    "Zoidberg.C30_accepts",
    "Zoidberg.C30_rejects",
    "Zoidberg.C30_unique",
    "Zoidberg.C30_collisions"
   ],
   "note": ""
  },
  {
   "property": "C31",
   "status": "proved",
   "theorems": [
    "Zoidberg.C31_keys",
    "Zoidberg.C31_succeeds",
    "Zoidberg.C31_grid_points"
   ],
   "note": ""
  },
  {
   "property": "C32",
   "status": "proved",
   "theorems": [
    "Zoidberg.C32_slice_index",
    "Zoidberg.C32_end_points",
    "Zoidberg.C32_half_cells"
   ],
   "note": "For boundaries that do not depend on y; make_maps uses the y of the farthest slice for all slices of a direction."
  },
  {
   "property": "C33",
   "status": "partial",
   "theorems": [
    "Zoidberg.C33_iff",
    "Zoidberg.C33_farthest_partial",
    "Zoidberg.C33_one_slice_partial",
    "Zoidberg.C33_zero_between",
    "Zoidberg.C33_fails"
   ],
   "note": "Proved for the farthest slices (all slices if nslice = 1). For nslice >= 2 the slices in between stay zero: refuted for every nslice >= 2. C33_iff: the exact condition."
  },
  {
   "property": "C34",
   "status": "partial",
   "theorems": [
    "Zoidberg.C34_iff",
    "Zoidberg.C34_actual_start",
    "Zoidberg.C34_centre_partial",
    "Zoidberg.C34_centre_is_grid_point",
    "Zoidberg.C34_fails"
   ],
   "note": "Holds for the sample in the centre of the cell. False of the code for the others (C34_fails); C34_actual_start says where they start instead. C34_iff: exactly the centre of the cell starts where it should on all grids."
  },
  {
   "property": "C35",
   "status": "proved",
   "theorems": [
    "Zoidberg.C35_partition",
    "Zoidberg.C35_zero_chunks",
    "Zoidberg.C35_no_garbage"
   ],
   "note": ""
  },
  {
   "property": "C36",
   "status": "proved",
   "theorems": [
    "Zoidberg.C36_values",
    "Zoidberg.C36_points",
    "Zoidberg.C36_constant",
    "Zoidberg.C36_zero_refinement"
   ],
   "note": ""
  },
  {
   "property": "C37",
   "status": "proved",
   "theorems": [
    "Zoidberg.C37_renames",
    "Zoidberg.C37_idempotent",
    "Zoidberg.C37_merges_on_clash"
   ],
   "note": ""
  },
  {
   "property": "C38",
   "status": "proved",
   "theorems": [
    "Zoidberg.C38_closed",
    "Zoidberg.C38_all_or_prefix",
    "Zoidberg.C38_file_finite",
    "Zoidberg.C38_read_back",
    "Zoidberg.C38_two_dimensional",
    "Zoidberg.C38_mixed"
   ],
   "note": "C38_mixed: numbers and arrays together."
  },
  {
   "property": "C39",
   "status": "partial",
   "theorems": [
    "Zoidberg.C39_iff",
    "Zoidberg.C39_uniform_partial",
    "Zoidberg.C39_spacing_partial",
    "Zoidberg.C39_fails"
   ],
   "note": "C39_iff: on a periodic grid with equal spacing all slices are right exactly if Ly is positive. Refuted for negative Ly: the assertion on the mean fails."
  },
  {
   "property": "C40",
   "status": "proved",
   "theorems": [
    "Zoidberg.C40_interruptions",
    "Zoidberg.C40_complete"
   ],
   "note": ""
  },
  {
   "property": "C41",
   "status": "proved",
   "theorems": [
    "Zoidberg.C41_keeps_old",
    "Zoidberg.C41_histories"
   ],
   "note": ""
  },
  {
   "property": "C42",
   "status": "proved",
   "theorems": [
    "Zoidberg.C42_closed",
    "Zoidberg.C42_missing",
    "Zoidberg.C42_completed",
    "Zoidberg.C42_only_completed"
   ],
   "note": ""
  },
  {
   "property": "C43",
   "status": "proved",
   "theorems": [
    "Zoidberg.C43_positions",
    "Zoidberg.C43_bijection",
    "Zoidberg.C43_order"
   ],
   "note": ""
  },
  {
   "property": "C44",
   "status": "proved",
   "theorems": [
    "Zoidberg.C44_inverse"
   ],
   "note": ""
  },
  {
   "property": "C45",
   "status": "proved",
   "theorems": [
    "Zoidberg.C45_centred"
   ],
   "note": ""
  },
  {
   "property": "C46",
   "status": "partial",
   "theorems": [
    "Zoidberg.C46_iff",
    "Zoidberg.C46_order_three_partial",
    "Zoidberg.C46_first_derivatives",
    "Zoidberg.C46_fails"
   ],
   "note": "Proved for orders of three and more and for the first derivatives; refuted for order two. C46_iff: among the orders from two on it holds exactly from three on."
  },
  {
   "property": "C47",
   "status": "proved",
   "theorems": [
    "Zoidberg.C47_converged"
   ],
   "note": ""
  },
  {
   "property": "C48",
   "status": "proved",
   "theorems": [
    "Zoidberg.C48_terminates",
    "Zoidberg.C48_bound"
   ],
   "note": ""
  },
  {
   "property": "C49",
   "status": "proved",
   "theorems": [
    "Zoidberg.C49_metric",
    "Zoidberg.C49_area"
   ],
   "note": ""
  },
  {
   "property": "C50",
   "status": "proved",
   "theorems": [
    "Zoidberg.C50_annulus",
    "Zoidberg.C50_rows",
    "Zoidberg.C50_sizes"
   ],
   "note": ""
  },
  {
   "property": "C51",
   "status": "proved",
   "theorems": [
    "Zoidberg.C51_rows"
   ],
   "note": ""
  },
  {
   "property": "C52",
   "status": "partial",
   "theorems": [
    "Zoidberg.C52_iff",
    "Zoidberg.C52_scaled",
    "Zoidberg.C52_solution_fixed",
    "Zoidberg.C52_fixed_partial",
    "Zoidberg.C52_result",
    "Zoidberg.C52_fails"
   ],
   "note": "Proved for dz_relax = 1, and the scaled equation for every value; refuted for the default 10/3. C52_iff: exactly for dz_relax = 1 on the skewed ring."
  },
  {
   "property": "C53",
   "status": "partial",
   "theorems": [
    "Zoidberg.C53_iff",
    "Zoidberg.C53_terminates",
    "Zoidberg.C53_endless",
    "Zoidberg.C53_sizes_partial",
    "Zoidberg.C53_fails",
    "Zoidberg.C53_fails_grid"
   ],
   "note": "Termination proved for every factor of at least two, endless recursion for one. C53_iff: the sizes stay at least two exactly if 2 restrict_factor <= restrict_size + 1; refuted for factor 20 with restrict_size 20."
  },
  {
   "property": "C54",
   "status": "proved",
   "theorems": [
    "Zoidberg.C54_direction",
    "Zoidberg.C54_anticlockwise",
    "Zoidberg.C54_zero"
   ],
   "note": ""
  },
  {
   "property": "C55",
   "status": "partial",
   "theorems": [
    "Zoidberg.C55_iff",
    "Zoidberg.C55_segment_partial",
    "Zoidberg.C55_nodes",
    "Zoidberg.C55_periodic_partial",
    "Zoidberg.C55_fails",
    "Zoidberg.C55_fails_periodic"
   ],
   "note": "Proved at the control points and for the period of angles that are not negative; inside a segment proved for what the code computes (the fraction times the angle of a segment). Refuted as stated, for every line over the reals. C55_iff: exactly when the position on a segment is right."
  },
  {
   "property": "C56",
   "status": "proved",
   "theorems": [
    "Zoidberg.C56_polygon",
    "Zoidberg.C56_weights",
    "Zoidberg.C56_spline",
    "Zoidberg.C56_nondecreasing"
   ],
   "note": ""
  },
  {
   "property": "C57",
   "status": "proved",
   "theorems": [
    "Zoidberg.C57_shortest",
    "Zoidberg.C57_permutation",
    "Zoidberg.C57_small"
   ],
   "note": ""
  },
  {
   "property": "C58",
   "status": "proved",
   "theorems": [
    "Zoidberg.C58_permutation",
    "Zoidberg.C58_small",
    "Zoidberg.C58_closestPoint"
   ],
   "note": ""
  },
  {
   "property": "C59",
   "status": "proved",
   "theorems": [
    "Zoidberg.C59_angle",
    "Zoidberg.C59_hull"
   ],
   "note": ""
  },
  {
   "property": "C60",
   "status": "proved",
   "theorems": [
    "Zoidberg.C60_route",
    "Zoidberg.C60_terminates",
    "Zoidberg.C60_three_cities",
    "Zoidberg.C60_negative",
    "Zoidberg.C60_line",
    "Zoidberg.C60_triangle"
   ],
   "note": ""
  },
  {
   "property": "C61",
   "status": "proved",
   "theorems": [
    "Zoidberg.C61_range",
    "Zoidberg.C61_start",
    "Zoidberg.C61_near"
   ],
   "note": ""
  },
  {
   "property": "C62",
   "status": "proved",
   "theorems": [
    "Zoidberg.C62_box",
    "Zoidberg.C62_none"
   ],
   "note": ""
  },
  {
   "property": "C63",
   "status": "partial",
   "theorems": [
    "Zoidberg.C63_even_odd",
    "Zoidberg.C63_beyond",
    "Zoidberg.C63_start",
    "Zoidberg.C63_below_partial",
    "Zoidberg.C63_fails_below",
    "Zoidberg.C63_fails_thin",
    "Zoidberg.C63_diamond",
    "Zoidberg.C63_vertex_iff",
    "Zoidberg.C63_below_iff"
   ],
   "note": "Even-odd rule, points beside and above, start and direction proved; points below the polygon only for an x that is not that of a vertex and without thin edges, refuted otherwise. C63_vertex_iff: for every polygon and point on no edge the answer is that of a ray slightly to the right exactly if the number of wide edges whose right end is on the ray is even; C63_below_iff the same for points below."
  },
  {
   "property": "C64",
   "status": "proved",
   "theorems": [
    "Zoidberg.C64_open",
    "Zoidberg.C64_periodic",
    "Zoidberg.C64_short"
   ],
   "note": ""
  },
  {
   "property": "C65",
   "status": "partial",
   "theorems": [
    "Zoidberg.C65_values_partial",
    "Zoidberg.C65_affine_partial",
    "Zoidberg.C65_fails",
    "Zoidberg.C65_short",
    "Zoidberg.C65_iff"
   ],
   "note": "Proved in the interior and for affine functions; refuted at the ends. C65_iff: among quadratics it holds exactly for the affine ones."
  },
  {
   "property": "C66",
   "status": "proved",
   "theorems": [
    "Zoidberg.C66_sum",
    "Zoidberg.C66_rotate"
   ],
   "note": ""
  },
  {
   "property": "C67",
   "status": "proved",
   "theorems": [
    "Zoidberg.C67_polygon",
    "Zoidberg.C67_chord",
    "Zoidberg.C67_split"
   ],
   "note": ""
  },
  {
   "property": "C68",
   "status": "proved",
   "theorems": [
    "Zoidberg.C68_lines",
    "Zoidberg.C68_indices",
    "Zoidberg.C68_alone"
   ],
   "note": ""
  },
  {
   "property": "C69",
   "status": "partial",
   "theorems": [
    "Zoidberg.C69_iff",
    "Zoidberg.C69_invalid",
    "Zoidberg.C69_validation_partial",
    "Zoidberg.C69_fails"
   ],
   "note": "Invalid input is refused; valid input gives the shape and data, except that a 1D x with a z of one element and more dimensions is refused (refutation). C69_iff: exactly when there is a ValueError."
  },
  {
   "property": "C70",
   "status": "partial",
   "theorems": [
    "Zoidberg.C70_iff",
    "Zoidberg.C70_symmetric",
    "Zoidberg.C70_affine_partial",
    "Zoidberg.C70_reversible_partial",
    "Zoidberg.C70_residual",
    "Zoidberg.C70_fails"
   ],
   "note": "Exact steps and exact return for every affine field and step with a non-singular equation; symmetry of the relation and the residual for every field. For a singular equation the iteration never ends (refutation). C70_iff: the iteration ends exactly if the equation is not singular. The fields of the library meet the hypothesis about the direction (C243_field)."
  },
  {
   "property": "C71",
   "status": "partial",
   "theorems": [
    "Zoidberg.C71_iff",
    "Zoidberg.C71_unchanged_partial",
    "Zoidberg.C71_fails"
   ],
   "note": "Unchanged for lists, scalars and arrays that are made larger; refuted for arrays of equal shape. C71_iff: the exact condition."
  },
  {
   "property": "C72",
   "status": "partial",
   "theorems": [
    "Zoidberg.C72_iff",
    "Zoidberg.C72_lines",
    "Zoidberg.C72_rows",
    "Zoidberg.C72_increasing",
    "Zoidberg.C72_positions_partial",
    "Zoidberg.C72_fails"
   ],
   "note": "Positions and order for at least two values of y; refuted for one slice and one revolution, which raise ValueError. C72_iff: exactly when it returns. C72_lines: from the starting points to the result."
  },
  {
   "property": "C73",
   "status": "partial",
   "theorems": [
    "Zoidberg.C73_transparent_partial",
    "Zoidberg.C73_shape",
    "Zoidberg.C73_fails_kwargs",
    "Zoidberg.C73_fails_names",
    "Zoidberg.C73_fails_scalar",
    "Zoidberg.C73_fails_again",
    "Zoidberg.C73_fails_broadcast",
    "Zoidberg.C73_digest_partial"
   ],
   "note": "Every call returns what the wrapped tracer returns if the texts that are hashed are distinct, the arrays have the dimensions that guess_shape expects and the keyword arguments are the same; refuted for other keyword arguments, names, scalars and broadcast arrays. C73_digest_partial: with the names of the code, from the first ten characters of the digests."
  },
  {
   "property": "C74",
   "status": "partial",
   "theorems": [
    "Zoidberg.C74_retries_partial",
    "Zoidberg.C74_raises_partial",
    "Zoidberg.C74_default",
    "Zoidberg.C74_fails"
   ],
   "note": "Equivalence for a positive number of chunks with the default configuration; refuted when there is only one chunk or a configuration is given: nothing is retried."
  },
  {
   "property": "C75",
   "status": "proved",
   "theorems": [
    "Zoidberg.C75_reduce",
    "Zoidberg.C75_inside"
   ],
   "note": ""
  },
  {
   "property": "C76",
   "status": "partial",
   "theorems": [
    "Zoidberg.C76_bilinear",
    "Zoidberg.C76_corners",
    "Zoidberg.C76_residual",
    "Zoidberg.C76_roundtrip",
    "Zoidberg.C76_parallelogram",
    "Zoidberg.C76_fallback_partial",
    "Zoidberg.C76_fails",
    "Zoidberg.C76_fails_range",
    "Zoidberg.C76_iff"
   ],
   "note": "Bilinear map, corners and residual are proved; the fallback touches the node only in the first row (refutations for the others). C76_iff: exactly for which nodes the fallback touches."
  },
  {
   "property": "C77",
   "status": "partial",
   "theorems": [
    "Zoidberg.C77_iff",
    "Zoidberg.C77_ignored",
    "Zoidberg.C77_same_partial",
    "Zoidberg.C77_fails"
   ],
   "note": "Refuted: rtol has no effect. Proved if the tracer was made with the same targetError. C77_iff: exactly for the targetError the tracer was made with."
  },
  {
   "property": "C78",
   "status": "partial",
   "theorems": [
    "Zoidberg.C78_iff",
    "Zoidberg.C78_direction_partial",
    "Zoidberg.C78_pair",
    "Zoidberg.C78_odd",
    "Zoidberg.C78_fails",
    "Zoidberg.C78_odd_assertion"
   ],
   "note": "Proved for all lists with at least one point; refuted for no points, where numpy raises a ValueError for the minimum of nothing. C78_iff: exactly when it returns. C78_odd_assertion: an odd number of values is an AssertionError."
  },
  {
   "property": "C79",
   "status": "proved",
   "theorems": [
    "Zoidberg.C79_potential",
    "Zoidberg.C79_divergence",
    "Zoidberg.C79_period",
    "Zoidberg.C79_fields"
   ],
   "note": ""
  },
  {
   "property": "C80",
   "status": "proved",
   "theorems": [
    "Zoidberg.C80_tangent",
    "Zoidberg.C80_radius"
   ],
   "note": ""
  },
  {
   "property": "C81",
   "status": "proved",
   "theorems": [
    "Zoidberg.C81_slab",
    "Zoidberg.C81_slab_exists",
    "Zoidberg.C81_curved"
   ],
   "note": ""
  },
  {
   "property": "C82",
   "status": "partial",
   "theorems": [
    "Zoidberg.C82_iff",
    "Zoidberg.C82_attributes_partial",
    "Zoidberg.C82_fails",
    "Zoidberg.C82_slab"
   ],
   "note": "Refuted: psi of one field becomes that of another. Proved for all other names, constructions and fields with their own dictionary. C82_iff: the exact condition."
  },
  {
   "property": "C83",
   "status": "proved",
   "theorems": [
    "Zoidberg.C83_volume",
    "Zoidberg.C83_doit"
   ],
   "note": ""
  },
  {
   "property": "C84",
   "status": "partial",
   "theorems": [
    "Zoidberg.C84_solve",
    "Zoidberg.C84_fluxX",
    "Zoidberg.C84_fluxZ",
    "Zoidberg.C84_closed",
    "Zoidberg.C84_laplacian",
    "Zoidberg.C84_exists",
    "Zoidberg.C84_radial_partial",
    "Zoidberg.C84_end",
    "Zoidberg.C84_fails",
    "Zoidberg.C84_iff"
   ],
   "note": "Proved away from the end of grids with Lz, and everywhere on grids without Lz. On grids with Lz, functions of R alone are exact everywhere (C84_radial_partial); C84_end says what happens at the end for the others; C84_fails: false for every rectangular grid, since the values of a linear function jump where the grid is closed in Z. C84_iff: on rectangular grids linear functions are exact in z exactly if they do not depend on Z."
  },
  {
   "property": "C85",
   "status": "proved",
   "theorems": [
    "Zoidberg.C85_conservative",
    "Zoidberg.C85_cleared"
   ],
   "note": ""
  },
  {
   "property": "C86",
   "status": "proved",
   "theorems": [
    "Zoidberg.C86_X",
    "Zoidberg.C86_Z",
    "Zoidberg.C86_iff"
   ],
   "note": ""
  },
  {
   "property": "C87",
   "status": "partial",
   "theorems": [
    "Zoidberg.C87_inside_partial",
    "Zoidberg.C87_fails",
    "Zoidberg.C87_rows",
    "Zoidberg.C87_iff"
   ],
   "note": "Refuted for the first and the last row (C87_fails, C87_rows); proved for all others. C87_iff: exactly the first and the last row depend on the memory."
  },
  {
   "property": "C88",
   "status": "partial",
   "theorems": [
    "Zoidberg.C88_iff",
    "Zoidberg.C88_split",
    "Zoidberg.C88_points",
    "Zoidberg.C88_runs",
    "Zoidberg.C88_returns",
    "Zoidberg.C88_length_partial",
    "Zoidberg.C88_fails"
   ],
   "note": "Proved, the last part for outliers below the length, as find_outliers returns them (C162). Refuted for others (C88_fails). C88_iff: the exact condition on the outliers beyond the end (EndCovered)."
  },
  {
   "property": "C89",
   "status": "proved",
   "theorems": [
    "Zoidberg.C89_rollup",
    "Zoidberg.C89_inside",
    "Zoidberg.C89_outside",
    "Zoidberg.C89_single",
    "Zoidberg.C89_refused"
   ],
   "note": "C89_single, C89_refused: replacements of another length."
  },
  {
   "property": "C90",
   "status": "partial",
   "theorems": [
    "Zoidberg.C90_iff",
    "Zoidberg.C90_end",
    "Zoidberg.C90_step_partial",
    "Zoidberg.C90_newr_partial",
    "Zoidberg.C90_fails"
   ],
   "note": "Refuted: a run that ends at the last point raises an IndexError (C90_end, C90_fails). Proved: no error for runs that end before it. C90_iff: a run is smoothed exactly if it ends before the last point."
  },
  {
   "property": "C91",
   "status": "proved",
   "theorems": [
    "Zoidberg.C91_terminates",
    "Zoidberg.C91_smooth",
    "Zoidberg.C91_fuel"
   ],
   "note": ""
  },
  {
   "property": "C92",
   "status": "proved",
   "theorems": [
    "Zoidberg.C92_parts",
    "Zoidberg.C92_read_round",
    "Zoidberg.C92_read",
    "Zoidberg.C92_injective",
    "Zoidberg.C92_pad",
    "Zoidberg.C92_negative"
   ],
   "note": "C92_negative, C92_pad: times below zero."
  },
  {
   "property": "C93",
   "status": "proved",
   "theorems": [
    "Zoidberg.C93_bar",
    "Zoidberg.C93_returns",
    "Zoidberg.C93_zoidberg",
    "Zoidberg.C93_zoidberg_text",
    "Zoidberg.C93_monotone"
   ],
   "note": ""
  },
  {
   "property": "C94",
   "status": "partial",
   "theorems": [
    "Zoidberg.C94_iff",
    "Zoidberg.C94_closed",
    "Zoidberg.C94_fails",
    "Zoidberg.C94_steps_partial"
   ],
   "note": "Refuted: the first and the last point coincide (C94_closed, C94_fails). Proved: the points are at equal steps of the angle. C94_iff: the points are distinct exactly if there is at most one."
  },
  {
   "property": "C95",
   "status": "partial",
   "theorems": [
    "Zoidberg.C95_cylindrical_partial",
    "Zoidberg.C95_fails",
    "Zoidberg.C95_fails_every",
    "Zoidberg.C95_iff"
   ],
   "note": "Proved for cylindrical coordinates. Refuted in Cartesian coordinates by a call that fails because Ly_cell_ylow is missing. C95_fails_every, C95_iff: for every grid and every field that does not vanish in some cell, exactly cylindrical coordinates have the property."
  },
  {
   "property": "C96",
   "status": "proved",
   "theorems": [
    "Zoidberg.C96_chunks_irrelevant"
   ],
   "note": ""
  },
  {
   "property": "C97",
   "status": "proved",
   "theorems": [
    "Zoidberg.C97_weights_sum"
   ],
   "note": ""
  },
  {
   "property": "C98",
   "status": "proved",
   "theorems": [
    "Zoidberg.C98_metric_in_file",
    "Zoidberg.C98_attributes_in_file",
    "Zoidberg.C98_succeeds"
   ],
   "note": ""
  },
  {
   "property": "C99",
   "status": "partial",
   "theorems": [
    "Zoidberg.C99_iff",
    "Zoidberg.C99_no_length_partial",
    "Zoidberg.C99_fails"
   ],
   "note": "Holds for maps without Ly (slab fields). With Ly only g_22 is replaced, not g22: refuted. C99_iff: true exactly where (Ly/dy)^2 is the old g_22."
  },
  {
   "property": "C100",
   "status": "partial",
   "theorems": [
    "Zoidberg.C100_iff",
    "Zoidberg.C100_right_or_error_partial",
    "Zoidberg.C100_fails"
   ],
   "note": "Never wrong coordinates, but an assertion may fail: refuted by planes 0, 1, 3 with period 9/2. C100_iff: a slice gets its coordinates exactly if the gap at the end of the period and the gap before its first plane agree within the tolerances of allclose."
  },
  {
   "property": "C101",
   "status": "proved",
   "theorems": [
    "Zoidberg.C101_slices_in_file",
    "Zoidberg.C101_succeeds"
   ],
   "note": ""
  },
  {
   "property": "C102",
   "status": "partial",
   "theorems": [
    "Zoidberg.C102_iff",
    "Zoidberg.C102_interior_partial",
    "Zoidberg.C102_fails"
   ],
   "note": "C102_iff: right exactly for planes whose neighbour exists; the others are rolled around the end: refuted."
  },
  {
   "property": "C103",
   "status": "partial",
   "theorems": [
    "Zoidberg.C103_new_file_partial",
    "Zoidberg.C103_fails",
    "Zoidberg.C103_nothing_written",
    "Zoidberg.C103_iff"
   ],
   "note": "Holds for files on which add_dagp was never run; refuted otherwise. C103_iff: true exactly if the planes counted as finished were right before."
  },
  {
   "property": "C104",
   "status": "partial",
   "theorems": [
    "Zoidberg.C104_iff",
    "Zoidberg.C104_ends_partial",
    "Zoidberg.C104_fails"
   ],
   "note": "Holds before the first and after the last write; refuted in between. C104_iff: for values that occur only once it holds exactly if the file had none of these attributes."
  },
  {
   "property": "C105",
   "status": "proved",
   "theorems": [
    "Zoidberg.C105_grid_file",
    "Zoidberg.C105_succeeds"
   ],
   "note": ""
  },
  {
   "property": "C106",
   "status": "partial",
   "theorems": [
    "Zoidberg.C106_sizes_partial",
    "Zoidberg.C106_fails",
    "Zoidberg.C106_two_dimensional",
    "Zoidberg.C106_iff",
    "Zoidberg.C106_last",
    "Zoidberg.C106_reopened"
   ],
   "note": "Proved for create=True and for writers opened once before add_grid. Refuted for reopened writers with create=False; with a two-dimensional B the reopened writer raises instead. C106_iff is exact in every state; C106_last: right for every writer that is not opened again after the last add_grid; C106_reopened: exact condition for writers opened again."
  },
  {
   "property": "C107",
   "status": "proved",
   "theorems": [
    "Zoidberg.C107_original_planes",
    "Zoidberg.C107_returns",
    "Zoidberg.C107_transposed"
   ],
   "note": ""
  },
  {
   "property": "C108",
   "status": "partial",
   "theorems": [
    "Zoidberg.C108_iff",
    "Zoidberg.C108_progress_partial",
    "Zoidberg.C108_fails"
   ],
   "note": "C108_iff: true exactly if there is more than one plane; refuted for one plane (ZeroDivisionError)."
  },
  {
   "property": "C109",
   "status": "proved",
   "theorems": [
    "Zoidberg.C109_affine"
   ],
   "note": ""
  },
  {
   "property": "C110",
   "status": "partial",
   "theorems": [
    "Zoidberg.C110_iff",
    "Zoidberg.C110_nodes_partial",
    "Zoidberg.C110_boundary_fails"
   ],
   "note": "C110_iff: found exactly if no point is on the first or last row; refuted for every point of these."
  },
  {
   "property": "C111",
   "status": "proved",
   "theorems": [
    "Zoidberg.C111_periodic",
    "Zoidberg.C111_nodes"
   ],
   "note": ""
  },
  {
   "property": "C112",
   "status": "proved",
   "theorems": [
    "Zoidberg.C112_regular"
   ],
   "note": ""
  },
  {
   "property": "C113",
   "status": "partial",
   "theorems": [
    "Zoidberg.C113_iff",
    "Zoidberg.C113_moved_partial",
    "Zoidberg.C113_fails"
   ],
   "note": "Refuted; proved that the distances are moved by one place. C113_iff: exactly the angles that are kept."
  },
  {
   "property": "C114",
   "status": "proved",
   "theorems": [
    "Zoidberg.C114_monotonic"
   ],
   "note": ""
  },
  {
   "property": "C115",
   "status": "proved",
   "theorems": [
    "Zoidberg.C115_numbers",
    "Zoidberg.C115_step",
    "Zoidberg.C115_laplace"
   ],
   "note": ""
  },
  {
   "property": "C116",
   "status": "partial",
   "theorems": [
    "Zoidberg.C116_equal_partial",
    "Zoidberg.C116_fails",
    "Zoidberg.C116_iff",
    "Zoidberg.C116_unroll",
    "Zoidberg.C116_mean"
   ],
   "note": "Proved for what is returned; refuted for angles that are equally spaced already. C116_iff: increasing angles are made equally spaced exactly if they are not so already."
  },
  {
   "property": "C117",
   "status": "proved",
   "theorems": [
    "Zoidberg.C117_along_field_line",
    "Zoidberg.C117_straight"
   ],
   "note": ""
  },
  {
   "property": "C118",
   "status": "partial",
   "theorems": [
    "Zoidberg.C118_not_first_partial",
    "Zoidberg.C118_fails"
   ],
   "note": "Proved for every even subdivision if the nearest control point is not the first one; refuted near the first point."
  },
  {
   "property": "C119",
   "status": "proved",
   "theorems": [
    "Zoidberg.C119_uniform"
   ],
   "note": ""
  },
  {
   "property": "C120",
   "status": "partial",
   "theorems": [
    "Zoidberg.C120_iff",
    "Zoidberg.C120_cubic_partial",
    "Zoidberg.C120_fails"
   ],
   "note": "C120_iff: true exactly for order three; refuted for order one."
  },
  {
   "property": "C121",
   "status": "partial",
   "theorems": [
    "Zoidberg.C121_iff",
    "Zoidberg.C121_all_candidates_partial",
    "Zoidberg.C121_fails"
   ],
   "note": "C121_iff: a line is returned exactly if there are points and every starting point makes a line; refuted for five points, four of which do."
  },
  {
   "property": "C122",
   "status": "partial",
   "theorems": [
    "Zoidberg.C122_anticlockwise_partial",
    "Zoidberg.C122_fails",
    "Zoidberg.C122_clockwise_iff"
   ],
   "note": "Proved if the points so far are anticlockwise; refuted for a clockwise triangle. C122_clockwise_iff: for clockwise distinct points the place is right exactly for k+1 = i or 2k+2 = i, that is at most two of the edges."
  },
  {
   "property": "C123",
   "status": "proved",
   "theorems": [
    "Zoidberg.C123_circle",
    "Zoidberg.C123_degenerate",
    "Zoidberg.C123_shaped"
   ],
   "note": ""
  },
  {
   "property": "C124",
   "status": "proved",
   "theorems": [
    "Zoidberg.C124_circle"
   ],
   "note": ""
  },
  {
   "property": "C125",
   "status": "partial",
   "theorems": [
    "Zoidberg.C125_convex_partial",
    "Zoidberg.C125_fails",
    "Zoidberg.C125_iff",
    "Zoidberg.C125_interior_iff"
   ],
   "note": "Proved for an x that is not that of a vertex and without thin edges; refuted by the centre of a square that stands on a corner. C125_iff gives the exact condition for every point that is on no edge; C125_interior_iff: an interior point is reported as outside exactly if a vertex is straight above it."
  },
  {
   "property": "C126",
   "status": "partial",
   "theorems": [
    "Zoidberg.C126_iff",
    "Zoidberg.C126_box_partial",
    "Zoidberg.C126_narrow",
    "Zoidberg.C126_fails",
    "Zoidberg.C126_fails_narrow"
   ],
   "note": "C126_iff: boxes at least 1e-6 wide agree exactly off the lower side; C126_narrow: narrower ones have every point outside."
  },
  {
   "property": "C127",
   "status": "proved",
   "theorems": [
    "Zoidberg.C127_periodic",
    "Zoidberg.C127_control",
    "Zoidberg.C127_order",
    "Zoidberg.C127_knots"
   ],
   "note": ""
  },
  {
   "property": "C128",
   "status": "proved",
   "theorems": [
    "Zoidberg.C128_chunks",
    "Zoidberg.C128_not_small"
   ],
   "note": ""
  },
  {
   "property": "C129",
   "status": "partial",
   "theorems": [
    "Zoidberg.C129_iff",
    "Zoidberg.C129_unchanged_partial",
    "Zoidberg.C129_fails"
   ],
   "note": "C129_iff: unchanged exactly for lists, sorted arrays and refused slices; refuted for an array in another order."
  },
  {
   "property": "C130",
   "status": "partial",
   "theorems": [
    "Zoidberg.C130_values_partial",
    "Zoidberg.C130_fails",
    "Zoidberg.C130_fails_uniform"
   ],
   "note": "Same for lists and arrays; refuted for the same array."
  },
  {
   "property": "C131",
   "status": "partial",
   "theorems": [
    "Zoidberg.C131_iff",
    "Zoidberg.C131_integers_partial",
    "Zoidberg.C131_fails"
   ],
   "note": "C131_iff: there is a result exactly if every array of integers is spread over the other, and it is that with floating point numbers; refuted because a TypeError is raised."
  },
  {
   "property": "C132",
   "status": "partial",
   "theorems": [
    "Zoidberg.C132_text_partial",
    "Zoidberg.C132_fails",
    "Zoidberg.C132_fails_shapes"
   ],
   "note": "Proved for arrays of the same shapes if all numbers are written with the same number of characters (C132_text_partial); refuted otherwise (C132_fails), and for all arrays that differ in their shapes only (C132_fails_shapes)."
  },
  {
   "property": "C133",
   "status": "proved",
   "theorems": [
    "Zoidberg.C133_chunks",
    "Zoidberg.C133_works"
   ],
   "note": ""
  },
  {
   "property": "C134",
   "status": "partial",
   "theorems": [
    "Zoidberg.C134_pass",
    "Zoidberg.C134_start",
    "Zoidberg.C134_period_partial",
    "Zoidberg.C134_fails",
    "Zoidberg.C134_rows",
    "Zoidberg.C134_follow"
   ],
   "note": "Proved for planes in the period of the start; refuted for others. C134_pass: the passes over the end of the period must succeed all the same, from the last meshes to the first or the other way."
  },
  {
   "property": "C135",
   "status": "proved",
   "theorems": [
    "Zoidberg.C135_coordinates"
   ],
   "note": ""
  },
  {
   "property": "C136",
   "status": "partial",
   "theorems": [
    "Zoidberg.C136_iff",
    "Zoidberg.C136_value_partial",
    "Zoidberg.C136_fails",
    "Zoidberg.C136_cylindrical"
   ],
   "note": "The divergence is B_R/R; refuted in general. C136_iff: it vanishes exactly where B_R does. C136_cylindrical: the divergence of RotatingEllipse and its toroidal component."
  },
  {
   "property": "C137",
   "status": "proved",
   "theorems": [
    "Zoidberg.C137_coils",
    "Zoidberg.C137_fields"
   ],
   "note": ""
  },
  {
   "property": "C138",
   "status": "partial",
   "theorems": [
    "Zoidberg.C138_iff",
    "Zoidberg.C138_potential_partial",
    "Zoidberg.C138_fails",
    "Zoidberg.C138_divergence"
   ],
   "note": "C138_iff: true exactly on the axis, at distance two from it, and without current; refuted elsewhere; planar divergence proved to vanish."
  },
  {
   "property": "C139",
   "status": "proved",
   "theorems": [
    "Zoidberg.C139_surfaces",
    "Zoidberg.C139_divergence",
    "Zoidberg.C139_psinorm",
    "Zoidberg.C139_file",
    "Zoidberg.C139_sense"
   ],
   "note": "C139_file: for the field built from a file with smooth splines; C139_sense: the sense in which the field goes around."
  },
  {
   "property": "C140",
   "status": "partial",
   "theorems": [
    "Zoidberg.C140_iff",
    "Zoidberg.C140_cos",
    "Zoidberg.C140_sin",
    "Zoidberg.C140_derivatives",
    "Zoidberg.C140_symmetric_partial",
    "Zoidberg.C140_fails"
   ],
   "note": "Proved for symmetric equilibria; refuted with iasym. C140_iff: exactly where the field with iasym is that of the surface."
  },
  {
   "property": "C141",
   "status": "partial",
   "theorems": [
    "Zoidberg.C141_iff",
    "Zoidberg.C141_const_iff",
    "Zoidberg.C141_mean_partial",
    "Zoidberg.C141_zero",
    "Zoidberg.C141_fails",
    "Zoidberg.C141_fails_constant"
   ],
   "note": "Proved from the third surface to the last but two; refuted for the others. C141_iff, C141_const_iff: exactly when the means are right, and that only the constant zero is kept."
  },
  {
   "property": "C142",
   "status": "proved",
   "theorems": [
    "Zoidberg.C142_periodic",
    "Zoidberg.C142_range",
    "Zoidberg.C142_inside"
   ],
   "note": ""
  },
  {
   "property": "C143",
   "status": "partial",
   "theorems": [
    "Zoidberg.C143_range",
    "Zoidberg.C143_inner",
    "Zoidberg.C143_outer",
    "Zoidberg.C143_set_partial",
    "Zoidberg.C143_fails",
    "Zoidberg.C143_fails_all"
   ],
   "note": "Values proved; refuted for constructed objects, which raise an AttributeError. C143_fails_all: for all boundaries and points."
  },
  {
   "property": "C144",
   "status": "partial",
   "theorems": [
    "Zoidberg.C144_saved_partial",
    "Zoidberg.C144_fails",
    "Zoidberg.C144_fails_old",
    "Zoidberg.C144_names",
    "Zoidberg.C144_iff",
    "Zoidberg.C144_limits",
    "Zoidberg.C144_kept",
    "Zoidberg.C144_old_name"
   ],
   "note": "Proved if the names are distinct and there are no old files; refuted otherwise. C144_names: two sets of arguments have the same file name exactly if the integers and the limits with two decimals agree; C144_limits: when the limits agree; C144_iff: exactly for which sets of arguments all histories of calls give the right values."
  },
  {
   "property": "C145",
   "status": "proved",
   "theorems": [
    "Zoidberg.C145_attempts"
   ],
   "note": ""
  },
  {
   "property": "C146",
   "status": "proved",
   "theorems": [
    "Zoidberg.C146_components",
    "Zoidberg.C146_magnitude"
   ],
   "note": ""
  },
  {
   "property": "C147",
   "status": "partial",
   "theorems": [
    "Zoidberg.C147_fails_all",
    "Zoidberg.C147_points_partial",
    "Zoidberg.C147_fails"
   ],
   "note": "Refuted: the range ends at 35; the points are given. C147_fails_all: the last point is 35 for every nz >= 2."
  },
  {
   "property": "C148",
   "status": "proved",
   "theorems": [
    "Zoidberg.C148_config",
    "Zoidberg.C148_coils",
    "Zoidberg.C148_accepted",
    "Zoidberg.C148_list"
   ],
   "note": "C148_list: the coils, by number."
  },
  {
   "property": "C149",
   "status": "proved",
   "theorems": [
    "Zoidberg.C149_filled",
    "Zoidberg.C149_missing"
   ],
   "note": ""
  },
  {
   "property": "C150",
   "status": "proved",
   "theorems": [
    "Zoidberg.C150_divergence",
    "Zoidberg.C150_curl"
   ],
   "note": ""
  },
  {
   "property": "C151",
   "status": "proved",
   "theorems": [
    "Zoidberg.C151_CN",
    "Zoidberg.C151_CD",
    "Zoidberg.C151_D",
    "Zoidberg.C151_N"
   ],
   "note": ""
  },
  {
   "property": "C152",
   "status": "proved",
   "theorems": [
    "Zoidberg.C152_norm",
    "Zoidberg.C152_axis",
    "Zoidberg.C152_cylinder"
   ],
   "note": ""
  },
  {
   "property": "C153",
   "status": "proved",
   "theorems": [
    "Zoidberg.C153_periods",
    "Zoidberg.C153_turn"
   ],
   "note": ""
  },
  {
   "property": "C154",
   "status": "proved",
   "theorems": [
    "Zoidberg.C154_total"
   ],
   "note": ""
  },
  {
   "property": "C155",
   "status": "partial",
   "theorems": [
    "Zoidberg.C155_coefs_partial",
    "Zoidberg.C155_stencil",
    "Zoidberg.C155_singular",
    "Zoidberg.C155_iff",
    "Zoidberg.C155_fails"
   ],
   "note": "C155_coefs_partial, C155_stencil: true for three or more points in z. C155_singular: with one or two points the equations are singular and doit raises. C155_iff: exact condition."
  },
  {
   "property": "C156",
   "status": "proved",
   "theorems": [
    "Zoidberg.C156_doit"
   ],
   "note": ""
  },
  {
   "property": "C157",
   "status": "partial",
   "theorems": [
    "Zoidberg.C157_iff",
    "Zoidberg.C157_near_partial",
    "Zoidberg.C157_fails"
   ],
   "note": "C157_iff: below 60 exactly if the duration is more than half a second below a whole minute; refuted otherwise (C157_fails: 59.5 seconds are printed as 60s). Proved: the printed time is within half a second."
  },
  {
   "property": "C158",
   "status": "proved",
   "theorems": [
    "Zoidberg.C158_remaining",
    "Zoidberg.C158_none"
   ],
   "note": ""
  },
  {
   "property": "C159",
   "status": "partial",
   "theorems": [
    "Zoidberg.C159_ignored",
    "Zoidberg.C159_fails",
    "Zoidberg.C159_index_partial"
   ],
   "note": "Refuted: freq is ignored (C159_ignored, C159_fails). Proved for functions of the number of the point, counted from minus half a turn."
  },
  {
   "property": "C160",
   "status": "proved",
   "theorems": [
    "Zoidberg.C160_minimum",
    "Zoidberg.C160_line",
    "Zoidberg.C160_interpolates"
   ],
   "note": ""
  },
  {
   "property": "C161",
   "status": "proved",
   "theorems": [
    "Zoidberg.C161_period"
   ],
   "note": ""
  },
  {
   "property": "C162",
   "status": "partial",
   "theorems": [
    "Zoidberg.C162_outliers",
    "Zoidberg.C162_range",
    "Zoidberg.C162_returns",
    "Zoidberg.C162_fails"
   ],
   "note": "The last part of the statement is refuted for a line without points (C162_fails); C162_returns is the exact condition."
  },
  {
   "property": "C163",
   "status": "proved",
   "theorems": [
    "Zoidberg.C163_outside",
    "Zoidberg.C163_pass"
   ],
   "note": ""
  },
  {
   "property": "C164",
   "status": "proved",
   "theorems": [
    "Zoidberg.C164_residual",
    "Zoidberg.C164_run"
   ],
   "note": ""
  },
  {
   "property": "C165",
   "status": "proved",
   "theorems": [
    "Zoidberg.C165_deriv",
    "Zoidberg.C165_speed",
    "Zoidberg.C165_length",
    "Zoidberg.C165_curv",
    "Zoidberg.C165_residual"
   ],
   "note": ""
  },
  {
   "property": "C166",
   "status": "proved",
   "theorems": [
    "Zoidberg.C166_unchanged",
    "Zoidberg.C166_find",
    "Zoidberg.C166_outliers"
   ],
   "note": ""
  },
  {
   "property": "C167",
   "status": "partial",
   "theorems": [
    "Zoidberg.C167_noplot",
    "Zoidberg.C167_plot",
    "Zoidberg.C167_lengths_partial",
    "Zoidberg.C167_fails"
   ],
   "note": "Refuted: without plot a failure raises an UnboundLocalError, with plot a success raises a NameError (C167_fails, C167_noplot, C167_plot). Proved: the lengths."
  },
  {
   "property": "C168",
   "status": "partial",
   "theorems": [
    "Zoidberg.C168_iff",
    "Zoidberg.C168_fails",
    "Zoidberg.C168_partial"
   ],
   "note": "Refuted: windows at the start reach around the line (C168_fails). Proved for outliers at least bounds from the start. C168_iff: the exact condition for a position to belong to two runs."
  },
  {
   "property": "C169",
   "status": "proved",
   "theorems": [
    "Zoidberg.C169_deb",
    "Zoidberg.C169_assertion",
    "Zoidberg.C169_split"
   ],
   "note": ""
  },
  {
   "property": "C170",
   "status": "partial",
   "theorems": [
    "Zoidberg.C170_fails",
    "Zoidberg.C170_available_partial"
   ],
   "note": "Refuted: warnings.warning does not exist, all functions raise an AttributeError (C170_fails)."
  },
  {
   "property": "C171",
   "status": "partial",
   "theorems": [
    "Zoidberg.C171_iff",
    "Zoidberg.C171_series_partial",
    "Zoidberg.C171_fails"
   ],
   "note": "Proved for at most six slices. Refuted for more: a list is multiplied by a float (C171_fails). C171_iff: exactly when it plots."
  },
  {
   "property": "C172",
   "status": "partial",
   "theorems": [
    "Zoidberg.C172_middle_partial",
    "Zoidberg.C172_fails",
    "Zoidberg.C172_iff"
   ],
   "note": "Proved for clicks outside and the middle button. Refuted for all others: the result has the shape (n, 1, 2) (C172_fails). C172_iff: for every integrator, a click is handled without an exception exactly if it is outside of the axes or with the middle button."
  },
  {
   "property": "C173",
   "status": "partial",
   "theorems": [
    "Zoidberg.C173_iff",
    "Zoidberg.C173_cycles_partial",
    "Zoidberg.C173_fails"
   ],
   "note": "Proved for one starting point. Refuted for more: they cannot be reshaped (C173_fails). C173_iff: exactly when it plots."
  },
  {
   "property": "C174",
   "status": "partial",
   "theorems": [
    "Zoidberg.C174_fails",
    "Zoidberg.C174_attributes_partial"
   ],
   "note": "Refuted: Grid has neither xarray nor xcentre (C174_fails). Proved: which attributes are needed."
  },
  {
   "property": "C175",
   "status": "partial",
   "theorems": [
    "Zoidberg.C175_disjoint",
    "Zoidberg.C175_structured_partial",
    "Zoidberg.C175_fails",
    "Zoidberg.C175_asymmetric",
    "Zoidberg.C175_iff"
   ],
   "note": "Proved for structured grids, and that no point gets both marks. Refuted for every rectangular grid (C175_fails, C175_asymmetric). C175_iff: exactly which positions on rectangular grids have the right marks."
  },
  {
   "property": "C176",
   "status": "partial",
   "theorems": [
    "Zoidberg.C176_iff",
    "Zoidberg.C176_plots_partial",
    "Zoidberg.C176_fails"
   ],
   "note": "Proved for periodic grids and for slices that have a neighbour. Refuted for the ends of other grids (C176_fails). C176_iff: exactly when it plots."
  },
  {
   "property": "C177",
   "status": "partial",
   "theorems": [
    "Zoidberg.C177_iff",
    "Zoidberg.C177_surfaces_partial",
    "Zoidberg.C177_fails",
    "Zoidberg.C177_values"
   ],
   "note": "Proved for two or more surfaces. Refuted for one (C177_fails). C177_iff: it returns exactly for two or more surfaces."
  },
  {
   "property": "C178",
   "status": "partial",
   "theorems": [
    "Zoidberg.C178_iff",
    "Zoidberg.C178_positions_partial",
    "Zoidberg.C178_fails",
    "Zoidberg.C178_fails_statement"
   ],
   "note": "Proved if all y values are on the same side of the first one. Refuted otherwise: the direction is that of the first step (C178_fails). C178_iff: right with every exact service exactly if all y values are on the same side of the first."
  },
  {
   "property": "C179",
   "status": "partial",
   "theorems": [
    "Zoidberg.C179_iff",
    "Zoidberg.C179_defined_partial",
    "Zoidberg.C179_more",
    "Zoidberg.C179_fails"
   ],
   "note": "Proved if the service returns a line for each point. Refuted for fewer (C179_fails). C179_iff: a row is set exactly if the service gives at least as many lines as asked for."
  },
  {
   "property": "C180",
   "status": "partial",
   "theorems": [
    "Zoidberg.C180_iff",
    "Zoidberg.C180_first",
    "Zoidberg.C180_angle_partial",
    "Zoidberg.C180_found_partial",
    "Zoidberg.C180_fails",
    "Zoidberg.C180_fails_negative",
    "Zoidberg.C180_fails_large",
    "Zoidberg.C180_zero"
   ],
   "note": "Proved for vertices at angles between -pi/2 and pi/2. Refuted for the other side (C180_fails), negative angles (C180_fails_negative) and angles of more than 93 degrees (C180_fails_large). C180_iff: exactly for which angles the point is never on the wrong side; C180_first: which vertex is taken."
  },
  {
   "property": "C181",
   "status": "partial",
   "theorems": [
    "Zoidberg.C181_fails",
    "Zoidberg.C181_fails_statement",
    "Zoidberg.C181_builtin_partial",
    "Zoidberg.C181_separate",
    "Zoidberg.C181_iff"
   ],
   "note": "Refuted: the argument makes no difference (C181_fails). Proved for the built-in file. C181_separate: the names of the two files never collide. C181_iff: the result is that for the file for every service exactly if it is the built-in one."
  },
  {
   "property": "C182",
   "status": "proved",
   "theorems": [
    "Zoidberg.C182_nodes",
    "Zoidberg.C182_outside"
   ],
   "note": ""
  },
  {
   "property": "C183",
   "status": "partial",
   "theorems": [
    "Zoidberg.C183_fails",
    "Zoidberg.C183_with_nx_partial"
   ],
   "note": "Refuted for all arguments (C183_fails)."
  },
  {
   "property": "C184",
   "status": "partial",
   "theorems": [
    "Zoidberg.C184_fails",
    "Zoidberg.C184_fails_Bz",
    "Zoidberg.C184_By_partial",
    "Zoidberg.C184_interval"
   ],
   "note": "Proved: the interval, By and R. Refuted: Bx is never a number (C184_fails) and Bz is zero (C184_fails_Bz)."
  },
  {
   "property": "C185",
   "status": "partial",
   "theorems": [
    "Zoidberg.C185_nodes_partial",
    "Zoidberg.C185_fails",
    "Zoidberg.C185_fails_statement"
   ],
   "note": "Proved for two or more angles. Refuted for the default of a file without toroidal modes (C185_fails)."
  },
  {
   "property": "C186",
   "status": "proved",
   "theorems": [
    "Zoidberg.C186_range",
    "Zoidberg.C186_nodes"
   ],
   "note": ""
  },
  {
   "property": "C187",
   "status": "partial",
   "theorems": [
    "Zoidberg.C187_iff",
    "Zoidberg.C187_fails",
    "Zoidberg.C187_fails_statement",
    "Zoidberg.C187_output_partial",
    "Zoidberg.C187_fails_x",
    "Zoidberg.C187_without"
   ],
   "note": "Proved: components, y and z coordinates. Refuted: the maps are never used (C187_fails), the x coordinates are spaced nx/(nx-1) dx (C187_fails_x). C187_iff: the coordinates in x are right exactly if there is only one."
  },
  {
   "property": "C188",
   "status": "partial",
   "theorems": [
    "Zoidberg.C188_fails",
    "Zoidberg.C188_arrays_partial"
   ],
   "note": "Refuted for all fields (C188_fails)."
  },
  {
   "property": "C189",
   "status": "partial",
   "theorems": [
    "Zoidberg.C189_fails",
    "Zoidberg.C189_iff",
    "Zoidberg.C189_direction",
    "Zoidberg.C189_magnitude"
   ],
   "note": "Refuted for an empty list of points, for which the call is an error (C189_fails); C189_iff: for every other list."
  },
  {
   "property": "C190",
   "status": "proved",
   "theorems": [
    "Zoidberg.C190_first",
    "Zoidberg.C190_error"
   ],
   "note": ""
  },
  {
   "property": "C191",
   "status": "proved",
   "theorems": [
    "Zoidberg.C191_cost"
   ],
   "note": ""
  },
  {
   "property": "C192",
   "status": "partial",
   "theorems": [
    "Zoidberg.C192_arguments",
    "Zoidberg.C192_partial",
    "Zoidberg.C192_fails"
   ],
   "note": "False: Bxfunc, Byfunc, Bzfunc are called as f(R, y, Z), where the signature is f(x, z, phi); the slice number is taken for z and Z for the angle. C192_fails gives two fields that agree at all grid points and have different curvature; C192_arguments says what is asked; C192_partial: true for fields that depend on R alone."
  },
  {
   "property": "C193",
   "status": "proved",
   "theorems": [
    "Zoidberg.C193_components",
    "Zoidberg.C193_covariant",
    "Zoidberg.C193_written",
    "Zoidberg.C193_even"
   ],
   "note": "C193_even: on a grid of equal parallelograms J dx dz is the radius times the area of a cell."
  },
  {
   "property": "C194",
   "status": "partial",
   "theorems": [
    "Zoidberg.C194_value",
    "Zoidberg.C194_partial",
    "Zoidberg.C194_fails"
   ],
   "note": "False: the g_yy used is 1 (the metric cache is reset by write_maps), so G_y is the physical component. C194_partial: right exactly where R = 1 or the component vanishes."
  },
  {
   "property": "C195",
   "status": "proved",
   "theorems": [
    "Zoidberg.C195_divergence"
   ],
   "note": ""
  },
  {
   "property": "C196",
   "status": "partial",
   "theorems": [
    "Zoidberg.C196_fails",
    "Zoidberg.C196_partial",
    "Zoidberg.C196_local_partial"
   ],
   "note": "False for every linear rule exact on lines (C196_fails): the derivative in z is not periodic. C196_partial: the points whose stencil does not cross the cut. C196_local_partial: for a local rule J turns at that distance from the cut, the curvature at twice the distance."
  },
  {
   "property": "C197",
   "status": "partial",
   "theorems": [
    "Zoidberg.C197_fails_numpy",
    "Zoidberg.C197_fails",
    "Zoidberg.C197_window",
    "Zoidberg.C197_partial",
    "Zoidberg.C197_returned",
    "Zoidberg.C197_runs_iff",
    "Zoidberg.C197_kept"
   ],
   "note": "False: np.int has been removed from numpy (AttributeError); with an older numpy the curvature is smoothed but never written. C197_partial, C197_window, C197_kept say what is written."
  },
  {
   "property": "C198",
   "status": "partial",
   "theorems": [
    "Zoidberg.C198_fails",
    "Zoidberg.C198_partial"
   ],
   "note": "False (C198_fails). C198_partial: what remains of it where nothing is smoothed."
  },
  {
   "property": "C199",
   "status": "partial",
   "theorems": [
    "Zoidberg.C199_iff",
    "Zoidberg.C199_lines",
    "Zoidberg.C199_partial",
    "Zoidberg.C199_fails"
   ],
   "note": "False: lines come in the order of the sorted slices. C199_partial: true for increasing slices. C199_iff: exactly for slices in increasing order, if the lines are different."
  },
  {
   "property": "C200",
   "status": "partial",
   "theorems": [
    "Zoidberg.C200_partial",
    "Zoidberg.C200_fails",
    "Zoidberg.C200_fails_claim"
   ],
   "note": "False: with neither rectangular nor curvilinear set, UnboundLocalError. C200_partial: otherwise a grid is made."
  },
  {
   "property": "C201",
   "status": "partial",
   "theorems": [
    "Zoidberg.C201_iff",
    "Zoidberg.C201_partial",
    "Zoidberg.C201_fails"
   ],
   "note": "False: the option for the outer boundary is ignored unless the one for the inner boundary is set. C201_iff: exactly the options for which it holds."
  },
  {
   "property": "C202",
   "status": "partial",
   "theorems": [
    "Zoidberg.C202_partial",
    "Zoidberg.C202_fails"
   ],
   "note": "False: the value is printed, the function returns None."
  },
  {
   "property": "C203",
   "status": "proved",
   "theorems": [
    "Zoidberg.C203_form",
    "Zoidberg.C203_index",
    "Zoidberg.C203_error"
   ],
   "note": "C203_error: with fewer than two maxima the error is an IndexError, and errors of the tracer are passed on."
  },
  {
   "property": "C204",
   "status": "partial",
   "theorems": [
    "Zoidberg.C204_partial",
    "Zoidberg.C204_fails_half",
    "Zoidberg.C204_fails",
    "Zoidberg.C204_fails_sign",
    "Zoidberg.C204_fails_fast"
   ],
   "note": "False: with 2*50/iota odd every other maximum is a tie and is lost, and half of iota is returned (C204_fails_half, for all such iota); iota > 50/11 is never returned; the sign is lost. C204_partial: for at least 21 points in a turn, two turns in the line and no tie at the first two turns."
  },
  {
   "property": "C205",
   "status": "proved",
   "theorems": [
    "Zoidberg.C205_read",
    "Zoidberg.C205_operators"
   ],
   "note": ""
  },
  {
   "property": "C206",
   "status": "partial",
   "theorems": [
    "Zoidberg.C206_all_lost",
    "Zoidberg.C206_corner",
    "Zoidberg.C206_cells_partial",
    "Zoidberg.C206_fails"
   ],
   "note": "False for every nslice >= 2 (and every grid and tracer): the sub-sample maps of the adjacent planes are zero then (C33), so with guard cells in x all cells lose their field lines to the boundary (C206_all_lost), and without them all cells take the value of one corner cell (C206_corner). C206_fails is an example where one and two slices differ; C206_cells_partial: the cell numbers do not depend on nslice."
  },
  {
   "property": "C207",
   "status": "partial",
   "theorems": [
    "Zoidberg.C207_positions",
    "Zoidberg.C207_value_partial",
    "Zoidberg.C207_fails"
   ],
   "note": "C207_positions holds for all cells. C207_value_partial: for end points whose z index is not negative, or is whole. False for the others (C207_fails), as C13."
  },
  {
   "property": "C208",
   "status": "partial",
   "theorems": [
    "Zoidberg.C208_positions",
    "Zoidberg.C208_value_partial",
    "Zoidberg.C208_whole",
    "Zoidberg.C208_fails"
   ],
   "note": "C208_positions (closed form of the maps) and C208_whole (permutation) hold for all cells. C208_value_partial says exactly where the interpolation is right: z index not negative, or whole; elsewhere it is wrong for every grid with at least four points in z. C208_fails is an example."
  },
  {
   "property": "C209",
   "status": "partial",
   "theorems": [
    "Zoidberg.C209_read",
    "Zoidberg.C209_succeeds",
    "Zoidberg.C209_fails"
   ],
   "note": "Refuted for the centre maps of the adjacent planes with partial boundaries (C209_fails); C209_succeeds is the rest of the statement."
  },
  {
   "property": "C210",
   "status": "partial",
   "theorems": [
    "Zoidberg.C210_one_sample_partial",
    "Zoidberg.C210_centre_sample_partial",
    "Zoidberg.C210_fails"
   ],
   "note": "C210_one_sample_partial: with one sample per cell. C210_centre_sample_partial: with odd quadrature rules, for tracers and grids that follow single points. False for even rules in both modes (C210_fails)."
  },
  {
   "property": "C211",
   "status": "partial",
   "theorems": [
    "Zoidberg.C211_one_slice_partial",
    "Zoidberg.C211_all_marked",
    "Zoidberg.C211_fails"
   ],
   "note": "C211_one_slice_partial: nslice = 1. False for every nslice >= 2 with guard cells in x: every adjacent centre map becomes -1 (C211_all_marked); C211_fails is an example."
  },
  {
   "property": "C212",
   "status": "partial",
   "theorems": [
    "Zoidberg.C212_no_slices",
    "Zoidberg.C212_fails"
   ],
   "note": "KeyError if the guard cells fit into the grid, IndexError if not. Refuted for more guard cells than cells, where calculate_parallel_map_operators gives an IndexError (C212_fails); C212_no_slices has both cases."
  },
  {
   "property": "C213",
   "status": "partial",
   "theorems": [
    "Zoidberg.C213_iff",
    "Zoidberg.C213_coefficients_iff",
    "Zoidberg.C213_second_order_partial",
    "Zoidberg.C213_axisymmetric",
    "Zoidberg.C213_fails"
   ],
   "note": "C213_second_order_partial: true if the coefficients of toroidal number 0 satisfy a + b = 0 and c + d = 0. False otherwise (C213_axisymmetric, C213_fails): V_hat shifts the phase by pi/2 also for toroidal number 0. C213_iff: the rate is of the second order at a point exactly if the two derivatives of the wrong part (dmAxi) satisfy log(r)/r * wR + y * wZ = 0 there. C213_coefficients_iff: it is of second order at every point exactly if, for toroidal number 0 and every poloidal number from 1, the coefficients a + b and c + d vanish."
  },
  {
   "property": "C214",
   "status": "partial",
   "theorems": [
    "Zoidberg.C214_same",
    "Zoidberg.C214_web_partial",
    "Zoidberg.C214_chunk",
    "Zoidberg.C214_fails"
   ],
   "note": "C214_web_partial: true for the web tracer. False for W7X_vacuum: the bare except catches the first interrupt and the call is repeated (C214_chunk, C214_fails)."
  },
  {
   "property": "C215",
   "status": "partial",
   "theorems": [
    "Zoidberg.C215_result",
    "Zoidberg.C215_last",
    "Zoidberg.C215_start",
    "Zoidberg.C215_fails"
   ],
   "note": "C215_result holds. False: a body that raises is reported with 100 % as well (C215_last, C215_fails)."
  },
  {
   "property": "C216",
   "status": "proved",
   "theorems": [
    "Zoidberg.C216_needs",
    "Zoidberg.C216_direction"
   ],
   "note": ""
  },
  {
   "property": "C217",
   "status": "partial",
   "theorems": [
    "Zoidberg.C217_iff",
    "Zoidberg.C217_traced_iff",
    "Zoidberg.C217_init",
    "Zoidberg.C217_traced",
    "Zoidberg.C217_partial",
    "Zoidberg.C217_fails"
   ],
   "note": "C217_partial: results depend only on the coils. False: inverseField of the object is overwritten (C217_init, C217_traced, C217_fails). C217_iff, C217_traced_iff: exactly when the configuration is as it was."
  },
  {
   "property": "C218",
   "status": "proved",
   "theorems": [
    "Zoidberg.C218_write",
    "Zoidberg.C218_roundtrip"
   ],
   "note": ""
  },
  {
   "property": "C219",
   "status": "partial",
   "theorems": [
    "Zoidberg.C219_args",
    "Zoidberg.C219_files_partial",
    "Zoidberg.C219_fails",
    "Zoidberg.C219_iff"
   ],
   "note": "C219_args says what happens for all argument lists; C219_files_partial: with at most one -p. A second -p is taken as a file name (C219_fails). C219_iff: the exact condition."
  },
  {
   "property": "C220",
   "status": "proved",
   "theorems": [
    "Zoidberg.C220_lines",
    "Zoidberg.C220_ycoords",
    "Zoidberg.C220_planes"
   ],
   "note": ""
  },
  {
   "property": "C221",
   "status": "partial",
   "theorems": [
    "Zoidberg.C221_open_partial",
    "Zoidberg.C221_coincide",
    "Zoidberg.C221_fails",
    "Zoidberg.C221_maps",
    "Zoidberg.C221_lines",
    "Zoidberg.C221_total"
   ],
   "note": "C221_open_partial: true for linspace without its end (screwpinch, rotating_ellipse). False for both scripts, for all periods and numbers of slices (C221_fails): linspace includes the end, so the last plane is the first one again. C221_maps: its forward map follows no field line; C221_total: the spacings add up to more than the period; C221_lines: the two planes get the same points."
  },
  {
   "property": "C222",
   "status": "partial",
   "theorems": [
    "Zoidberg.C222_limit",
    "Zoidberg.C222_iff",
    "Zoidberg.C222_uniform_partial",
    "Zoidberg.C222_fails"
   ],
   "note": "C222_uniform_partial: true if the previous and the next plane are equally distant. C222_limit: the limit for all planes. C222_iff: exact condition; false for planes 0, 1, 3 (C222_fails)."
  },
  {
   "property": "C223",
   "status": "partial",
   "theorems": [
    "Zoidberg.C223_arc_partial",
    "Zoidberg.C223_turns",
    "Zoidberg.C223_fails",
    "Zoidberg.C223_iff"
   ],
   "note": "C223_arc_partial: true if the interpolated angle does not turn back. Otherwise the length is larger than the arc from some refinement on (C223_turns); three points with refine_parallel_integral = 1 at the angles 0, 1/2, 5/2 are such a case (C223_fails). C223_iff: exactly if the interpolated angle does not turn back."
  },
  {
   "property": "C224",
   "status": "partial",
   "theorems": [
    "Zoidberg.C224_default",
    "Zoidberg.C224_flags_partial",
    "Zoidberg.C224_fails"
   ],
   "note": "C224_default and C224_flags_partial: true for rectangular, smooth_curvature, write_iota. The flags curvilinear, curvilinear_inner_aligned, curvilinear_outer_aligned and calc_curvature switch off what they name (C224_fails)."
  },
  {
   "property": "C225",
   "status": "proved",
   "theorems": [
    "Zoidberg.C225_open",
    "Zoidberg.C225_periodic"
   ],
   "note": ""
  },
  {
   "property": "C226",
   "status": "partial",
   "theorems": [
    "Zoidberg.C226_values",
    "Zoidberg.C226_iff",
    "Zoidberg.C226_periodic_partial",
    "Zoidberg.C226_fails"
   ],
   "note": "C226_values: second order inside; at the ends the error is h times the second derivative. C226_iff: true exactly if the second derivative vanishes at both ends. C226_periodic_partial: true for the periodic version. C226_fails: sin from 1 to 2."
  },
  {
   "property": "C227",
   "status": "partial",
   "theorems": [
    "Zoidberg.C227_periodic_partial",
    "Zoidberg.C227_iff",
    "Zoidberg.C227_fails"
   ],
   "note": "C227_periodic_partial: true for periodic=True. Otherwise c2 raises for every integer array with three points or more, and c4 cuts off the fractions, so it is right exactly if all results are whole (C227_iff, C227_fails)."
  },
  {
   "property": "C228",
   "status": "partial",
   "theorems": [
    "Zoidberg.C228_partial",
    "Zoidberg.C228_exists_partial",
    "Zoidberg.C228_circle_partial",
    "Zoidberg.C228_fails",
    "Zoidberg.C228_tours_partial",
    "Zoidberg.C228_iff"
   ],
   "note": "C228_partial, C228_exists_partial: true if at every point both neighbours along the line are nearer than all other points. C228_circle_partial: true for circles. False for four points of a line with elongation 1 (C228_fails). C228_tours_partial: enough that the shortest ways to nearest points are the line; C228_iff: this is exact where no distances are equal."
  },
  {
   "property": "C229",
   "status": "partial",
   "theorems": [
    "Zoidberg.C229_iff",
    "Zoidberg.C229_partial",
    "Zoidberg.C229_fails"
   ],
   "note": "C229_partial: true up to the two edges that follow the third last and the last point: range(1, len(route) - 2) never tries that exchange. C229_fails: a triangle with a point inside stays longer than needed. C229_iff: with opt=0 the line returned is 2-optimal exactly if the exchanges of the last edge with the second one and with the last but two save nothing."
  },
  {
   "property": "C230",
   "status": "partial",
   "theorems": [
    "Zoidberg.C230_partial",
    "Zoidberg.C230_ellipse_partial",
    "Zoidberg.C230_fails",
    "Zoidberg.C230_iff"
   ],
   "note": "C230_partial: true for lines that are star-shaped about the mean of their points; C230_ellipse_partial: for all circles and ellipses. False for a line with a dent (C230_fails). C230_iff: for points at different angles about their mean, exactly if these angles are monotone along the line."
  },
  {
   "property": "C231",
   "status": "partial",
   "theorems": [
    "Zoidberg.C231_partial",
    "Zoidberg.C231_crossing",
    "Zoidberg.C231_fails"
   ],
   "note": "C231_partial: for opt=0 at most one pair of edges crosses. False: five points for which, for every opt, the line crosses itself (C231_crossing, C231_fails), because two_opt never tries one of the exchanges."
  },
  {
   "property": "C232",
   "status": "partial",
   "theorems": [
    "Zoidberg.Weights.C232_partial",
    "Zoidberg.Weights.C232_fails",
    "Zoidberg.Weights.C232_any_z_partial",
    "Zoidberg.Weights.C232_edge"
   ],
   "note": "C232_partial: true, with the constants 7/20 and 7/16, where the stencils lie inside the evolving region. False where a stencil reaches over the edge in x: there not even straight lines are reproduced (C232_fails), since the values are continued as constants. C232_any_z_partial: negative z indices too, with a larger constant. C232_edge: first order at every row, also next to the edge."
  },
  {
   "property": "C233",
   "status": "partial",
   "theorems": [
    "Zoidberg.C233_partial",
    "Zoidberg.C233_roundtrip_partial",
    "Zoidberg.C233_fails"
   ],
   "note": "C233_partial and C233_roundtrip_partial: on curved grids, if the second derivatives are small enough for the distance from the nearest grid point, findIndex succeeds within its 1000 passes and returns the index to within 2 beta sqrt(tol). C233_fails: false for every grid, since indices within half a cell of the inner or outer boundary are returned as -1 or nx."
  },
  {
   "property": "C234",
   "status": "partial",
   "theorems": [
    "Zoidberg.C234_J",
    "Zoidberg.C234_total",
    "Zoidberg.C234_iff",
    "Zoidberg.C234_uniform_partial",
    "Zoidberg.C234_fails"
   ],
   "note": "C234_J: J is exactly R. C234_total: the cross-section is exact, the angle is the sum of dy. C234_iff: true exactly if the distance across the period is the mean of the first and the last spacing; C234_uniform_partial: so for equally spaced planes. False for planes 0, 1, 3 with period 4 (C234_fails), since dy is wrong at the ends (C25)."
  },
  {
   "property": "C235",
   "status": "partial",
   "theorems": [
    "Zoidberg.C235_points",
    "Zoidberg.C235_curve_partial",
    "Zoidberg.C235_rows_partial",
    "Zoidberg.C235_clockwise",
    "Zoidberg.C235_fails"
   ],
   "note": "C235_points: for anticlockwise lines only the start of the numbering changes, to the outboard point for the line with less points and to the best of all starts for the other. C235_curve_partial, C235_rows_partial: for lines made without options the curves are the same and the boundary rows of the grid are on them. False with spline_order=1 (C235_fails): the aligned lines are cubic splines, and the grid reaches out of the polygon. C235_clockwise: for clockwise lines the outboard point becomes the last one."
  },
  {
   "property": "C236",
   "status": "partial",
   "theorems": [
    "Zoidberg.C236_unaligned_partial",
    "Zoidberg.C236_ort_partial",
    "Zoidberg.C236_line",
    "Zoidberg.C236_aligned_partial",
    "Zoidberg.C236_fails",
    "Zoidberg.C236_annulus"
   ],
   "note": "C236_unaligned_partial, C236_ort_partial: for all similarities if the lines are not aligned (align=False or inner_ort=True), for all sizes, levels and sweeps. C236_aligned_partial: with align=True for shifts and scalings. C236_line: a line through the images of points is the image of the line. C236_annulus: grid_annulus follows all affine maps. False for a half turn with the default align=True (C236_fails): the numbering starts at the largest R again."
  },
  {
   "property": "C237",
   "status": "proved",
   "theorems": [
    "Zoidberg.C237_symmetric",
    "Zoidberg.C237_axisymmetric"
   ],
   "note": "C237_symmetric for p planes of any periodic grid, C237_axisymmetric for equal planes. Both ask that the tracer follows lines of the field (a map of R, Z, y and the new y) with the symmetry."
  },
  {
   "property": "C238",
   "status": "proved",
   "theorems": [
    "Zoidberg.C238_start"
   ],
   "note": "C238_start."
  },
  {
   "property": "C239",
   "status": "proved",
   "theorems": [
    "Zoidberg.C239_lengths",
    "Zoidberg.C239_mirror"
   ],
   "note": "C239_mirror; By is multiplied by the factor with which the field is mirrored. C239_lengths: field_line_length has the symmetry that is asked for, for all interpolations that do not depend on origin and direction of the angles; interpolation by polynomials is one of them (which CubicSpline is for at most four points)."
  },
  {
   "property": "C240",
   "status": "partial",
   "theorems": [
    "Zoidberg.C240_iff",
    "Zoidberg.C240_scale_partial",
    "Zoidberg.C240_same",
    "Zoidberg.C240_reverse",
    "Zoidberg.C240_fails"
   ],
   "note": "C240_scale_partial where both fields are above 1e-8; C240_same: whenever both calls return, they return the same; C240_reverse: in full for -B. False in general (C240_fails): every field has a weaker one with the same lines that is refused. C240_iff: the same exactly if the second field is above 1e-8 too."
  },
  {
   "property": "C241",
   "status": "partial",
   "theorems": [
    "Zoidberg.C241_nodes",
    "Zoidberg.C241_partial",
    "Zoidberg.C241_axis",
    "Zoidberg.C241_fails",
    "Zoidberg.C241_corner",
    "Zoidberg.C241_iff",
    "Zoidberg.C241_outside_iff"
   ],
   "note": "C241_nodes: flux and derivatives at nodes. C241_partial: inside points get the profile of the normalised flux, outside points the edge values, according to what PolygonBoundaryXZ.outside answers; C241_axis for the magnetic axis. False in general (C241_fails): with a diamond-shaped boundary the column of grid points through a corner counts as outside, so that the axis gets the edge values. C241_iff and C241_outside_iff: exactly which grid points get the values of the edge; C241_corner for the points below a corner."
  },
  {
   "property": "C242",
   "status": "partial",
   "theorems": [
    "Zoidberg.C242_iff",
    "Zoidberg.C242_partial",
    "Zoidberg.C242_no_boundary",
    "Zoidberg.C242_fails"
   ],
   "note": "C242_partial: files with at least one point of the plasma boundary, with and without limiter. False in general (C242_no_boundary, C242_fails): without points of the plasma boundary every file raises ValueError. C242_iff: exactly the files that can be read."
  },
  {
   "property": "C243",
   "status": "proved",
   "theorems": [
    "Zoidberg.C243_reversible",
    "Zoidberg.C243_field"
   ],
   "note": "C243_reversible: sub-steps h with |h| Lambda <= 1/4; the Newton iterations end, and after n sub-steps back the distance is at most 3 sqrt(rtol) (rho^n - 1), rho = (1+k)/(1-k), k = |h| Lambda/2. Exact arithmetic; the direction of the field is given for every position (no errors near By = 0). C243_field: the fields of the library meet the hypothesis about the direction if By is nowhere below the limit of field_direction."
  },
  {
   "property": "C244",
   "status": "proved",
   "theorems": [
    "Zoidberg.C244_accurate"
   ],
   "note": "C244_accurate: (3/2 sqrt(rtol) + 5/12 M h^2/Lambda)(exp(8/7 Lambda T) - 1) after the distance T, for |h| Lambda <= 1/4. The fields of the library meet the hypothesis about the direction (C243_field)."
  },
  {
   "property": "C245",
   "status": "proved",
   "theorems": [
    "Zoidberg.C245_surface"
   ],
   "note": "C245_surface; stell_line_exists shows that there are such lines through all points off the coils. Real arithmetic."
  },
  {
   "property": "C246",
   "status": "proved",
   "theorems": [
    "Zoidberg.C246_confined",
    "Zoidberg.C246_off_coils"
   ],
   "note": "C246_confined, C246_off_coils."
  },
  {
   "property": "C247",
   "status": "proved",
   "theorems": [
    "Zoidberg.C247_helical",
    "Zoidberg.C247_mirror",
    "Zoidberg.C247_mirror_lines",
    "Zoidberg.C247_helical_lines"
   ],
   "note": "C247_helical, C247_mirror for the components, C247_helical_lines, C247_mirror_lines for the lines."
  },
  {
   "property": "C248",
   "status": "partial",
   "theorems": [
    "Zoidberg.C248_iff",
    "Zoidberg.C248_actual",
    "Zoidberg.C248_own_partial",
    "Zoidberg.C248_fails"
   ],
   "note": "C248_actual says what the code does for all boundaries; C248_own_partial for one slice or boundaries that do not depend on y. Refuted for every number of slices from two on (C248_fails): the variable y_slice left over from a loop is used. C248_iff: the exact condition."
  },
  {
   "property": "C249",
   "status": "partial",
   "theorems": [
    "Zoidberg.C249_iff",
    "Zoidberg.C249_above_partial",
    "Zoidberg.C249_fails"
   ],
   "note": "C249_iff gives the exact condition; refuted just below all j from zero on and just above all negative j (C249_fails)."
  },
  {
   "property": "C250",
   "status": "partial",
   "theorems": [
    "Zoidberg.C250_iff",
    "Zoidberg.C250_up_partial",
    "Zoidberg.C250_fails"
   ],
   "note": "C250_iff: the sum is conserved exactly if the shift s (in cells) is not negative, is whole, or is at most 1 - nz; refuted by C250_fails for lines that go down by a fraction of a cell. C250_up_partial: true for lines that go up."
  },
  {
   "property": "C251",
   "status": "proved",
   "theorems": [
    "Zoidberg.C251_inverse",
    "Zoidberg.C251_undoes"
   ],
   "note": "For tracers that are reversible and periodic in y, and grids whose findIndex finds grid points (proved for rectangular grids: rect_findsNodes)."
  },
  {
   "property": "C252",
   "status": "proved",
   "theorems": [
    "Zoidberg.C252_values",
    "Zoidberg.C252_calls",
    "Zoidberg.C252_passed",
    "Zoidberg.C252_returns"
   ],
   "note": "C252_values, C252_calls, C252_passed, C252_returns."
  },
  {
   "property": "C253",
   "status": "partial",
   "theorems": [
    "Zoidberg.C253_iff",
    "Zoidberg.C253_ends_partial",
    "Zoidberg.C253_fails"
   ],
   "note": "C253_ends_partial: make_maps returns exactly if the coordinates lie strictly between 0 and Ly (not periodic), or within one period (periodic). Refuted by C253_fails: with a plane at y = 0 the lines to the plane before it have no length, and the spline in field_line_length raises a ValueError."
  },
  {
   "property": "C254",
   "status": "partial",
   "theorems": [
    "Zoidberg.C254_middle",
    "Zoidberg.C254_before",
    "Zoidberg.C254_only",
    "Zoidberg.C254_stuck",
    "Zoidberg.C254_misses",
    "Zoidberg.C254_node_partial",
    "Zoidberg.C254_inner",
    "Zoidberg.C254_fails"
   ],
   "note": "False for all points that are more than 2 pi / n of the distance after the nearest point of the line (C254_stuck, C254_misses, C254_fails): the refinement then always ends at 0.999, which is worse than the nearest point without refinements, because positionPolygon jumps at the end of a segment (C55). C254_inner: grid_elliptic starts with these angles. C254_node_partial: right beside the points of the line. C254_middle: up to 2 pi / n after a point the angle converges to f radians after it, instead of f steps. C254_before: before a point the angle of the point or 10 ^ -niter steps less. C254_only: with 13 points or more the default is right only at most two thousandths before a point, or after it where f steps and f radians differ by at most two thousandths of a step."
  },
  {
   "property": "C255",
   "status": "proved",
   "theorems": [
    "Zoidberg.C255_orbit",
    "Zoidberg.C255_closed",
    "Zoidberg.C255_constant"
   ],
   "note": "C255_orbit, C255_closed, C255_constant; meets_node: lines that end exactly at grid points."
  },
  {
   "property": "C256",
   "status": "proved",
   "theorems": [
    "Zoidberg.C256_consistent"
   ],
   "note": "C256_consistent."
  },
  {
   "property": "C257",
   "status": "partial",
   "theorems": [
    "Zoidberg.C257_row",
    "Zoidberg.C257_partial",
    "Zoidberg.C257_fails"
   ],
   "note": "C257_row, C257_partial: where the stencils in x are inside the evolving region. C257_fails: next to the edge of the grid the derivative of a straight line is wrong (first order of C232_edge)."
  },
  {
   "property": "C258",
   "status": "partial",
   "theorems": [
    "Zoidberg.Weights.C258_partial",
    "Zoidberg.Weights.C258_whole",
    "Zoidberg.Weights.C258_fails",
    "Zoidberg.Weights.C258_fails_positive",
    "Zoidberg.Weights.C258_amplification",
    "Zoidberg.Weights.C258_iff",
    "Zoidberg.Weights.C258_sharp"
   ],
   "note": "C258_partial: at most 25/16 times the largest value (45/4 times it with negative z indices); C258_whole: no amplification if the ends are grid points. C258_fails: 5/4 half way between two points; C258_fails_positive: positive values can give negative ones. C258_sharp: the factor 25/16 is reached. C258_amplification, C258_iff: with one sample away from the edge, at the fractions u and w of a cell, the largest amplification is at least (1+u(1-u))(1+w(1-w)); there is none exactly if the sample is a grid point."
  },
  {
   "property": "C259",
   "status": "proved",
   "theorems": [
    "Zoidberg.C259_row",
    "Zoidberg.C259_derivative",
    "Zoidberg.C259_reversible"
   ],
   "note": "C259_row, C259_derivative: the error of C257 plus 2 L eps for a row, and that over d for the derivative. C259_reversible: with FieldTracerReversible eps is of second order in the length of the sub-steps (for maps that start at the grid points, see C260). The fields of the library meet the hypothesis about the direction (C243_field)."
  },
  {
   "property": "C260",
   "status": "partial",
   "theorems": [
    "Zoidberg.C260_partial",
    "Zoidberg.C260_forward_partial",
    "Zoidberg.C260_backward",
    "Zoidberg.C260_grid_after",
    "Zoidberg.C260_shared",
    "Zoidberg.C260_backward_iff",
    "Zoidberg.C260_fails",
    "Zoidberg.C260_fails_shared",
    "Zoidberg.C260_arrays_after",
    "Zoidberg.C260_samples",
    "Zoidberg.C260_fails_samples"
   ],
   "note": "C260_partial: for tracers that leave their arguments (FieldTracer, FieldTracerWeb) the grid is unchanged and the maps are those of makeMaps, for all options; C260_forward_partial: the forward maps with FieldTracerReversible and a poloidal grid of its own for each plane. C260_fails, C260_fails_shared: FieldTracerReversible moves pol.R and pol.Z in place; C260_backward, C260_shared, C260_grid_after say for all inputs where the maps start instead and where the grid is left, C260_backward_iff when the backward maps are right all the same. C260_arrays_after: what followReversible leaves in its arrays is the last row of the result. C260_samples, C260_fails_samples: with several samples per cell the samples start from the moved arrays, on all planes and in both directions."
  },
  {
   "property": "C261",
   "status": "proved",
   "theorems": [
    "Zoidberg.C261_found",
    "Zoidberg.C261_no_hints",
    "Zoidberg.C261_left"
   ],
   "note": "C261_found: the first zone from that of the hint with a cell that contains the point, cell 0 included; C261_no_hints: the hints do not matter if only one cell contains the point (the hypothesis NoHints of C134); C261_left: the error exactly if the point is in no cell and at least 1 away from all nodes. find_cell of eudist is a parameter assumed to find a cell exactly if there is one (FindOk)."
  },
  {
   "property": "C262",
   "status": "proved",
   "theorems": [
    "Zoidberg.C262_spread",
    "Zoidberg.C262_iff",
    "Zoidberg.C262_section",
    "Zoidberg.C262_volume",
    "Zoidberg.C262_total",
    "Zoidberg.C262_J"
   ],
   "note": "C262_spread, C262_iff: the determinant of the map along the lines is B0/Bpar exactly if the divergence vanishes on the lines; C262_section, C262_volume, C262_total: areas and volumes; C262_J: the limit of J dy is area times the density of the tube volume (planes at the same distance on both sides, see C222). The map along the lines is assumed twice differentiable (LineMap)."
  },
  {
   "property": "C263",
   "status": "partial",
   "theorems": [
    "Zoidberg.C263_iff",
    "Zoidberg.C263_cylindrical_partial",
    "Zoidberg.C263_straight",
    "Zoidberg.C263_fails",
    "Zoidberg.C263_planes"
   ],
   "note": "False for fields with Rfunc None or a constant: the code uses x for all fields (C263_fails, C263_straight: the value is x/Rfunc times the right one for lines at constant x). C263_iff is the exact condition; C263_cylindrical_partial holds for Rfunc = x. C263_planes: exact condition for planes at any distances."
  },
  {
   "property": "C264",
   "status": "partial",
   "theorems": [
    "Zoidberg.C264_print",
    "Zoidberg.C264_quotient",
    "Zoidberg.C264_iff",
    "Zoidberg.C264_partial",
    "Zoidberg.C264_conserved",
    "Zoidberg.C264_slice",
    "Zoidberg.C264_lines",
    "Zoidberg.C264_fails"
   ],
   "note": "Refuted (C264_conserved for all fields, C264_fails with a witness): the test multiplies the area of a cell with the strength of the field instead of its toroidal component, so that it prints where the pitch of the lines changes although the flux is conserved exactly. C264_print: exactly when the text is printed; C264_quotient, C264_iff: exactly for which data the test is right; C264_partial: it is right if the pitch is the same at both ends of every line; C264_lines: what is constant along the lines of a source-free field."
  },
  {
   "property": "C265",
   "status": "partial",
   "theorems": [
    "Zoidberg.C265_limit",
    "Zoidberg.C265_det",
    "Zoidberg.C265_iff",
    "Zoidberg.C265_ratio",
    "Zoidberg.C265_partial",
    "Zoidberg.C265_fails"
   ],
   "note": "Refuted (C265_fails, for all planes and cells): for close planes J tends to the area of the cell times the major radius (C265_limit), while the root of the determinant of the metric in the same file is this times |B/By| (C265_det), because g_yy contains the pitch of the field but g_xy and g_yz are zero. C265_iff: they agree exactly if |B| = |By| at the point; C265_ratio: the quotient; C265_partial: they agree for fields perpendicular to the planes."
  },
  {
   "property": "C266",
   "status": "partial",
   "theorems": [
    "Zoidberg.C266_chain",
    "Zoidberg.C266_g22",
    "Zoidberg.C266_any",
    "Zoidberg.C266_partial",
    "Zoidberg.C266_reversed",
    "Zoidberg.C266_fails"
   ],
   "note": "Proved where By is positive (C266_partial), away from the edge of the grid, with the error of C257; C266_chain and C266_g22 are the two exact identities behind it. Refuted where By is negative: the result is minus the gradient along the field, for all such fields and cells (C266_reversed, C266_fails). C266_any: with any other number in place of the root of g_22."
  },
  {
   "property": "C267",
   "status": "partial",
   "theorems": [
    "Zoidberg.C267_partial",
    "Zoidberg.C267_iff",
    "Zoidberg.C267_floor",
    "Zoidberg.C267_fails"
   ],
   "note": "Proved for periods that are integers (C267_partial, also the exceptions). Refuted otherwise: the planes 0, 1, 2 with a period slightly below 3 pass the test of Ly and give an AssertionError (C267_fails). C267_iff: for increasing coordinates exactly the integer periods; C267_floor: what comes out for coordinates that are not negative is the slice for the integer part of the period."
  },
  {
   "property": "C268",
   "status": "partial",
   "theorems": [
    "Zoidberg.C268_id",
    "Zoidberg.C268_integers",
    "Zoidberg.C268_only_if",
    "Zoidberg.C268_run_iff",
    "Zoidberg.C268_fails",
    "Zoidberg.C268_find",
    "Zoidberg.C268_partial"
   ],
   "note": "Proved for lines without corners (C268_partial). Refuted: of a line of integers with a corner nothing changes, while the corner is cut off if the numbers are floating point numbers (C268_fails). C268_integers: the result consists of integers, whatever the curve is; C268_run_iff: exactly the runs whose new points are integers are the same; C268_only_if; C268_id: with floating point numbers the model is that of the other properties."
  },
  {
   "property": "C269",
   "status": "partial",
   "theorems": [
    "Zoidberg.C269_partial",
    "Zoidberg.C269_fails"
   ],
   "note": "Proved where the cells of the stencils of both ends are inside the evolving region (C269_partial, with constants 1/12, 7/10 and 35/6). Refuted next to the edge of the grid (C269_fails): the second derivative of a straight line is -1/16 there. taylor_three and second_mid hold for all functions."
  },
  {
   "property": "C270",
   "status": "proved",
   "theorems": [
    "Zoidberg.C270_fixup"
   ],
   "note": ""
  },
  {
   "property": "C271",
   "status": "partial",
   "theorems": [
    "Zoidberg.C271_iff",
    "Zoidberg.C271_partial",
    "Zoidberg.C271_fails_all",
    "Zoidberg.C271_fails"
   ],
   "note": "Refuted: fixup looks for g21, g31, g32 in the file, which are not there, so that it inverts a triangular matrix (C271_fails, C271_fails_all: wrong everywhere on every x surface where g13 is positive). C271_iff: right in a cell exactly if all components off the diagonal vanish there; C271_partial for surfaces without them."
  },
  {
   "property": "C272",
   "status": "partial",
   "theorems": [
    "Zoidberg.C272_fails",
    "Zoidberg.C272_difference"
   ],
   "note": "Refuted for every plane (C272_fails): the angles are a tenth of the distance of the planes apart; C272_difference says by how much they differ."
  },
  {
   "property": "C273",
   "status": "proved",
   "theorems": [
    "Zoidberg.C273_order",
    "Zoidberg.C273_exact",
    "Zoidberg.C273_passes"
   ],
   "note": ""
  },
  {
   "property": "C274",
   "status": "partial",
   "theorems": [
    "Zoidberg.C274_equal",
    "Zoidberg.C274_pappus",
    "Zoidberg.C274_iff",
    "Zoidberg.C274_fails",
    "Zoidberg.C274_ring",
    "Zoidberg.C274_direction",
    "Zoidberg.C274_shell",
    "Zoidberg.C274_modes"
   ],
   "note": "C274_equal: both modes for sections at equal angles; C274_pappus: mode 0 for all angles; C274_ring, C274_shell: rectangles; C274_direction: the polygons may begin anywhere and go either way. Refuted for mode 1 and other angles (C274_fails); C274_iff: with the same section everywhere it is right exactly if the mean distance of the angles is that of equal angles. C274_modes: any other mode ends in a TypeError."
  },
  {
   "property": "C275",
   "status": "partial",
   "theorems": [
    "Zoidberg.C275_slope",
    "Zoidberg.C275_iff",
    "Zoidberg.C275_fails",
    "Zoidberg.C275_power_partial"
   ],
   "note": "Refuted: with three grids the slope does not depend on the middle error (C275_slope, C275_fails). C275_iff: exactly if the last error is at most 2^-1.8 of the first. C275_power_partial: errors that are a power of the number of points."
  },
  {
   "property": "C276",
   "status": "partial",
   "theorems": [
    "Zoidberg.C276_power",
    "Zoidberg.C276_fails",
    "Zoidberg.C276_decreasing_partial"
   ],
   "note": "Refuted: the test takes the size of the slope, so that it passes if the errors grow (C276_fails). C276_power: for powers exactly if the size of the exponent is at least 1.8; C276_decreasing_partial: for errors that do not grow."
  },
  {
   "property": "C277",
   "status": "partial",
   "theorems": [
    "Zoidberg.C277_parts",
    "Zoidberg.C277_squares",
    "Zoidberg.C277_rect_partial",
    "Zoidberg.C277_strict",
    "Zoidberg.C277_fails",
    "Zoidberg.C277_grows",
    "Zoidberg.C277_iff",
    "Zoidberg.C277_weights_partial"
   ],
   "note": "C277_parts: for every grid the sum against another field is minus the sum over faces of flux times difference. C277_rect_partial, C277_squares, C277_strict: rectangular grids are symmetric and lose energy strictly. Refuted: for nested squares with positive volumes the operator is not symmetric (C277_fails). C277_grows: the energy can grow even if all cells are convex (trapezoids with straight sides) and have positive volumes. C277_iff: symmetric exactly if every two interior neighbours have the same weight for each other; C277_weights_partial: then energy is lost if no weight is negative."
  },
  {
   "property": "C278",
   "status": "partial",
   "theorems": [
    "Zoidberg.C278_weights",
    "Zoidberg.C278_iff",
    "Zoidberg.C278_skew",
    "Zoidberg.C278_rect_partial",
    "Zoidberg.C278_fails"
   ],
   "note": "C278_weights, C278_iff: for every grid, exactly if none of the eight weights is negative and the step is short enough. C278_rect_partial: for rectangular slab grids exactly the limit of the usual explicit scheme. Refuted: in nested squares every step makes new extremes (C278_fails); so does it on uniformly skew grids (C278_skew)."
  },
  {
   "property": "C279",
   "status": "partial",
   "theorems": [
    "Zoidberg.C279_last",
    "Zoidberg.C279_last_two",
    "Zoidberg.C279_passes",
    "Zoidberg.C279_any",
    "Zoidberg.C279_fails",
    "Zoidberg.C279_first_partial",
    "Zoidberg.C279_c4_passes"
   ],
   "note": "Refuted: slice(-1) is everything but the last point, so the verdict does not depend on it (C279_last, C279_last_two for c4), and c2 with any number at the last point passes (C279_any, C279_fails). C279_passes: c2 passes, though its error at the ends is of first order in general (C226), because the second derivative of the sine vanishes at the first point. C279_first_partial: an error of first order at the first point is noticed. C279_c4_passes: c4 passes the first half of its test."
  },
  {
   "property": "C280",
   "status": "partial",
   "theorems": [
    "Zoidberg.C280_polygon",
    "Zoidberg.C280_one_partial",
    "Zoidberg.C280_iff",
    "Zoidberg.C280_fails"
   ],
   "note": "C280_polygon: without refinement the length is that of the polygon through the points, for every interpolant; C280_one_partial: so straight lines are exact with refine=1. C280_iff: for every refine, exact if and only if the interpolated points are on the straight line one after the other. Refuted for refine=2 and two points (C280_fails): the interpolated line is an arc."
  },
  {
   "property": "C281",
   "status": "partial",
   "theorems": [
    "Zoidberg.Weights.C281_others_partial",
    "Zoidberg.Weights.C281_marks_iff",
    "Zoidberg.Weights.C281_filter_iff",
    "Zoidberg.Weights.C281_fails_two_modes"
   ],
   "note": "Refuted. C281_marks_iff: with partial boundaries the arrays of the caller stay as they were if and only if all cells with an escaping sub-sample were marked before; C281_filter_iff: without partial boundaries if and only if no cell has escaping and staying sub-samples. Both also if the call raises later. C281_fails_two_modes: calls on two shallow copies, first with and then without partial boundaries, give other boundary legs than the second call alone. C281_others_partial: all other objects in memory are never changed."
  },
  {
   "property": "C282",
   "status": "partial",
   "theorems": [
    "Zoidberg.C282_iff",
    "Zoidberg.C282_changed_partial",
    "Zoidberg.C282_fails"
   ],
   "note": "Refuted. a.all() says whether an array has no zero entry; the first height of each polygon is sin 0 = 0. C282_iff gives exactly when the whole test passes: the outliers as expected, and no zero in the new heights of the first and third run, a zero in those of the second. C282_fails: for every polygon there are heights that differ at every point but the first and pass the assertion that nothing was smoothed. C282_changed_partial: the assertion that something was smoothed is sound."
  },
  {
   "property": "C283",
   "status": "proved",
   "theorems": [
    "Zoidberg.C283_near",
    "Zoidberg.C283_exact",
    "Zoidberg.C283_polygon",
    "Zoidberg.C283_circle"
   ],
   "note": "The hypothesis is on the derivative of the two splines (splrep is a parameter); C283_near holds for every line with that hypothesis, C283_circle for those made by circle, C283_polygon without any hypothesis on splines for straight segments."
  },
  {
   "property": "C284",
   "status": "proved",
   "theorems": [
    "Zoidberg.C284_iff",
    "Zoidberg.C284_all_or_none",
    "Zoidberg.C284_unchanged"
   ],
   "note": "Exact real arithmetic; points exactly on the circle."
  },
  {
   "property": "C285",
   "status": "partial",
   "theorems": [
    "Zoidberg.C285_half_angle",
    "Zoidberg.C285_found_partial",
    "Zoidberg.C285_fails"
   ],
   "note": "Refuted. find_outliers takes the angle at the last of the three points. C285_half_angle: if both directions have the same length, the number compared is the cosine of half the angle by which the line turns. C285_fails: for every limit between 0 and 1 a corner below the limit is not found. C285_found_partial: with equal lengths what is found is a corner."
  },
  {
   "property": "C286",
   "status": "proved",
   "theorems": [
    "Zoidberg.C286_maps",
    "Zoidberg.C286_identity",
    "Zoidberg.C286_test"
   ],
   "note": "C286_maps: the maps of every slice. C286_identity: they are the identity exactly if the field has no z component there. C286_test: the test passes exactly if the lines move by at most 1e-8 cells."
  },
  {
   "property": "C287",
   "status": "proved",
   "theorems": [
    "Zoidberg.C287_ends",
    "Zoidberg.C287_circles",
    "Zoidberg.C287_distinct",
    "Zoidberg.C287_anticlockwise"
   ],
   "note": "C287_ends, C287_circles, C287_distinct, C287_anticlockwise: for all five modules, all modes and sizes."
  },
  {
   "property": "C288",
   "status": "partial",
   "theorems": [
    "Zoidberg.C288_names",
    "Zoidberg.C288_fails_radii",
    "Zoidberg.C288_fails_import",
    "Zoidberg.C288_poloidal",
    "Zoidberg.C288_iff",
    "Zoidberg.C288_main",
    "Zoidberg.C288_grids"
   ],
   "note": "Refuted: in all modules but poloidal_grid, gen_grid takes the name from the variable args of the module, which exists only in the main program (C288_fails_import), and the radii are not in the names (C288_fails_radii). C288_names and C288_iff are exact; C288_poloidal: poloidal_grid is right; C288_main and C288_grids: the main programs write every grid of their lists to the right name."
  },
  {
   "property": "C289",
   "status": "partial",
   "theorems": [
    "Zoidberg.C289_info",
    "Zoidberg.C289_iff",
    "Zoidberg.C289_fails",
    "Zoidberg.C289_partial"
   ],
   "note": "Refuted for radial_grid, where two entries share a file of results (C289_fails). C289_iff is exact; C289_info: the name of the file; C289_partial: the other four modules keep all results."
  },
  {
   "property": "C290",
   "status": "proved",
   "theorems": [
    "Zoidberg.C290_maps",
    "Zoidberg.C290_one_grid"
   ],
   "note": "C290_maps, for all grids with regular coordinates and exact splines; C290_one_grid: one poloidal grid is on all planes."
  },
  {
   "property": "C291",
   "status": "proved",
   "theorems": [
    "Zoidberg.C291_reversible",
    "Zoidberg.C291_slab",
    "Zoidberg.C291_curved",
    "Zoidberg.C291_poincare",
    "Zoidberg.C291_test",
    "Zoidberg.C291_test_reversible",
    "Zoidberg.C291_test_tracer",
    "Zoidberg.C291_test_poincare",
    "Zoidberg.C291_detects",
    "Zoidberg.C291_poincare_detects"
   ],
   "note": "C291_reversible for all fields along y and z that depend on x only, C291_slab, C291_curved, C291_poincare; C291_test: the tests pass for every exact tracer, C291_test_reversible, C291_test_tracer, C291_test_poincare. C291_detects, C291_poincare_detects: exactly when the tests pass."
  },
  {
   "property": "C292",
   "status": "partial",
   "theorems": [
    "Zoidberg.C292_perm",
    "Zoidberg.C292_between_partial",
    "Zoidberg.C292_node",
    "Zoidberg.C292_theta",
    "Zoidberg.C292_section",
    "Zoidberg.C292_circle",
    "Zoidberg.C292_area",
    "Zoidberg.C292_torus",
    "Zoidberg.C292_error",
    "Zoidberg.C292_fails",
    "Zoidberg.C292_equal",
    "Zoidberg.C292_few"
   ],
   "note": "C292_theta, C292_perm, C292_node, C292_section; C292_circle, C292_area, C292_error, C292_torus for points on a circle; C292_between_partial: a corner lies between the distances if there are points at angles on both sides. C292_fails: interp1d extrapolates beyond the first and last angle, so three points at distances of at least 1 give a corner in the centre. No theorem is missing: the claim is false of the code there. C292_equal, C292_few: when there is none."
  },
  {
   "property": "C293",
   "status": "proved",
   "theorems": [
    "Zoidberg.C293_periodic",
    "Zoidberg.C293_straight",
    "Zoidberg.C293_bound",
    "Zoidberg.C293_test_positive",
    "Zoidberg.C293_const",
    "Zoidberg.C293_order",
    "Zoidberg.C293_poly",
    "Zoidberg.C293_error"
   ],
   "note": "C293_periodic, C293_straight, C293_bound, C293_test_positive; C293_const, C293_order, C293_poly for the reference; C293_error: the error the test looks at, with C222."
  },
  {
   "property": "C294",
   "status": "proved",
   "theorems": [
    "Zoidberg.C294_cell",
    "Zoidberg.C294_total",
    "Zoidberg.C294_rows",
    "Zoidberg.C294_linear",
    "Zoidberg.C294_error",
    "Zoidberg.C294_test",
    "Zoidberg.C294_conformal",
    "Zoidberg.C294_reference",
    "Zoidberg.C294_passes"
   ],
   "note": "C294_cell, C294_total for all curvilinear grids; C294_rows for rows on circles; C294_linear, C294_error for equal distances, C294_conformal for the conformal grid; C294_test: the assertion of the test for these errors. C294_reference, C294_passes: test_run passes where the lines are circles."
  },
  {
   "property": "C295",
   "status": "proved",
   "theorems": [
    "Zoidberg.C295_iff",
    "Zoidberg.C295_total",
    "Zoidberg.C295_passes",
    "Zoidberg.C295_circle",
    "Zoidberg.C295_area",
    "Zoidberg.C295_reversed",
    "Zoidberg.C295_circular",
    "Zoidberg.C295_circular_iff"
   ],
   "note": "C295_iff, C295_total: what the assertion says; C295_passes, C295_circle: when it holds (C228); C295_area, C295_reversed: what it notices; C295_circular, C295_circular_iff for test_circular_boundaries."
  },
  {
   "property": "C296",
   "status": "proved",
   "theorems": [
    "Zoidberg.C296_lookup",
    "Zoidberg.C296_periodic_lookup",
    "Zoidberg.C296_iff",
    "Zoidberg.C296_periodic_iff",
    "Zoidberg.C296_rectangular"
   ],
   "note": "C296_iff and C296_periodic_iff: exactly when the two tests pass, for any grid; C296_rectangular: for the grids of rectangular_grid of any size. C296_lookup, C296_periodic_lookup: what the tests notice of any getPoloidalGrid, right or wrong."
  },
  {
   "property": "C297",
   "status": "proved",
   "theorems": [
    "Zoidberg.C297_iff",
    "Zoidberg.C297_slab",
    "Zoidberg.C297_passes",
    "Zoidberg.C297_curved",
    "Zoidberg.C297_arange"
   ],
   "note": "C297_iff for any field; C297_slab, C297_arange: exactly which shear is noticed; C297_passes without shear; C297_curved: the major radius is not noticed."
  },
  {
   "property": "C298",
   "status": "proved",
   "theorems": [
    "Zoidberg.C298_c2_factor",
    "Zoidberg.C298_c4_factor",
    "Zoidberg.C298_rms",
    "Zoidberg.C298_iff",
    "Zoidberg.C298_c2",
    "Zoidberg.C298_c4",
    "Zoidberg.C298_factor"
   ],
   "note": "C298_c2_factor, C298_c4_factor, C298_rms: the errors for every number of points; C298_iff: exactly when an operator with a factor passes; C298_c2, C298_c4: both pass; C298_factor: a wrong factor is noticed."
  },
  {
   "property": "C299",
   "status": "proved",
   "theorems": [
    "Zoidberg.C299_total",
    "Zoidberg.C299_iff",
    "Zoidberg.C299_passes",
    "Zoidberg.C299_order"
   ],
   "note": "C299_total: the whole distance; C299_iff: exactly when test_distance passes; C299_passes: it passes for splines with a speed near that of the circles; C299_order: test_order_by_distance."
  },
  {
   "property": "C300",
   "status": "partial",
   "theorems": [
    "Zoidberg.C300_block",
    "Zoidberg.C300_single",
    "Zoidberg.C300_iff_partial",
    "Zoidberg.C300_raises",
    "Zoidberg.C300_fails"
   ],
   "note": "False as stated (C300_fails): the distances in the test are those of neighbouring lines, not of the steps along a line, so a tracer with steps of any length passes. C300_block, C300_iff_partial: exactly what the test notices; C300_single: with one line it would raise a ValueError; C300_raises."
  },
  {
   "property": "C301",
   "status": "partial",
   "theorems": [
    "Zoidberg.C301_fits",
    "Zoidberg.C301_bound",
    "Zoidberg.C301_fails",
    "Zoidberg.C301_inside_partial"
   ],
   "note": "False as stated (C301_fails): rectangular_grid has the default of two guard cells at both sides, so with nx = 5 one cell has the width Lx and the outermost points are 2 from the centre, outside the coils at sqrt 2. C301_inside_partial: the points between the guard cells are within the coils; C301_fits, C301_bound: their distance from all coils and the bound of the field for all y."
  }
 ]
}
