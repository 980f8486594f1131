{"id": "C01", "title": "Global cell numbers form a bijection onto 0..total_cells-1", "statement": "Whenever 2*MXG <= nx, the numbers exported as cell_number, forward_cell_number (entries >= 0) and backward_cell_number (entries >= 0) are pairwise distinct, and together they are exactly 0, 1, ..., total_cells-1.", "quantifier": "all nx, ny, nz, MXG with 2*MXG <= nx, and all forward/backward sub-sample maps", "why_tests_cant": "A test fixes one grid size, guard width and one set of mapped coordinates; the claim is about every size and every map.", "anchors": ["zoidberg/weights.py:assign_cell_space_numbers", "zoidberg/weights.py:calculate_parallel_map_operators"]}
{"id": "C02", "title": "Evolving cells come first, in (x,y,z) order", "statement": "The cell (x,y,z) with MXG <= x < nx-MXG has number ((x-MXG)*ny+y)*nz+z; every other cell, including each inner and outer X guard cell and each parallel boundary cell, has a number >= (nx-2*MXG)*ny*nz, inner guard cells before outer guard cells before parallel boundary cells.", "quantifier": "all grid sizes, guard widths and maps", "why_tests_cant": "A test fixes one grid size, guard width and one set of mapped coordinates; the claim is about every size and every map.", "anchors": ["zoidberg/weights.py:assign_cell_space_numbers"]}
{"id": "C03", "title": "A parallel boundary cell exists exactly where a field line leaves the domain", "statement": "For an interior source cell, forward_cell_number (backward_cell_number) is non-negative if and only if at least one forward (backward) sub-sample has x < MXG or x > nx-MXG-1; outside the interior it is always -1.", "quantifier": "all maps, all cells", "why_tests_cant": "A test fixes one grid size, guard width and one set of mapped coordinates; the claim is about every size and every map.", "anchors": ["zoidberg/weights.py:assign_cell_space_numbers", "zoidberg/weights.py:hits_radial_boundary"]}
{"id": "C04", "title": "Leg rows are numbered without gaps or clashes", "statement": "In each direction the non-negative entries of leg_interior_number and leg_boundary_number are pairwise distinct and are exactly 0..n_legs-1; each interior cell owns one row when its sub-samples agree and two when they are split, and guard cells own none.", "quantifier": "all maps with at least one sub-sample per cell, both directions", "why_tests_cant": "A test fixes one grid size, guard width and one set of mapped coordinates; the claim is about every size and every map.", "anchors": ["zoidberg/weights.py:build_leg_space_metadata", "zoidberg/weights.py:classify_leg_contributions"]}
{"id": "C05", "title": "Leg weights of every source cell add up to one", "statement": "For every interior cell the leg weights of its rows sum to the sum of the quadrature weights (which the code accepts only within 1e-8 of 1), and to exactly 1 if the cell has a single row; with positive quadrature weights every leg weight is positive.", "quantifier": "all maps and all accepted quadrature weights", "why_tests_cant": "A test fixes one grid size, guard width and one set of mapped coordinates; the claim is about every size and every map.", "anchors": ["zoidberg/weights.py:build_leg_weight_vector", "zoidberg/weights.py:_get_subcell_weights"]}
{"id": "C06", "title": "CSR export is faithful", "statement": "In the exported (weights, columns, rows) arrays, rows starts at 0, is non-decreasing, ends at the number of non-zeros, and the slice rows[i]:rows[i+1] of (columns, weights) is exactly the i-th assembled row in order.", "quantifier": "all sparse matrices that can be assembled", "why_tests_cant": "A test fixes one grid size, guard width and one set of mapped coordinates; the claim is about every size and every map.", "anchors": ["zoidberg/weights.py:SparseRowMatrixBuilder.to_csr"]}
{"id": "C07", "title": "Accumulating into a sparse row is addition", "statement": "After any sequence of add_to_entry calls on a row no column occurs twice, and the total stored for a column is the sum of all weights added to that column; other rows are unchanged.", "quantifier": "all histories of add_to_entry/set_row calls", "why_tests_cant": "A history of arbitrary length has to be considered; tests try a few.", "anchors": ["zoidberg/weights.py:SparseRowMatrixBuilder.add_to_entry", "zoidberg/weights.py:SparseRowMatrixBuilder.set_row"]}
{"id": "C08", "title": "Catmull-Rom weights reproduce quadratics", "statement": "For every fractional offset u the four weights sum to 1 and reproduce every polynomial of degree <= 2 sampled at -1,0,1,2; at u=0 and u=1 they select the grid point exactly.", "quantifier": "all real u and all quadratics", "why_tests_cant": "u is a continuous parameter.", "anchors": ["zoidberg/weights.py:catmull_rom_weights"]}
{"id": "C09", "title": "Weight is moved off the radial guard cells without loss", "statement": "If MXG <= x_base <= nx-MXG-1 the adjusted X weights have the same sum, are zero on every stencil point outside the evolving region, are unchanged if the whole stencil lies inside, and no out-of-range list access or ValueError occurs.", "quantifier": "all weights summing to 1, all nx, MXG, x_base in range", "why_tests_cant": "A test fixes one grid size, guard width and one set of mapped coordinates; the claim is about every size and every map.", "anchors": ["zoidberg/weights.py:shift_weights_out_of_x_boundaries"]}
{"id": "C10", "title": "Operator assembly succeeds on every well-formed map", "statement": "For positive quadrature weights accepted by the checks, ny, nz >= 1 and 2*MXG <= nx, calculate_parallel_map_operators raises nothing: no zero interior weight, no invalid column, no row assigned twice, no index error.", "quantifier": "all well-formed maps", "why_tests_cant": "A test fixes one grid size, guard width and one set of mapped coordinates; the claim is about every size and every map.", "anchors": ["zoidberg/weights.py:calculate_parallel_map_operators", "zoidberg/weights.py:build_leg_destination_operator", "zoidberg/weights.py:accumulate_interior_stencil"]}
{"id": "C11", "title": "Interior rows only couple to evolving cells of the neighbouring plane", "statement": "Every column in an interior leg row is the number of an evolving cell (column < number of evolving cells) in the plane (y+1) mod ny (forward) or (y-1) mod ny (backward); every boundary leg row has exactly one entry: its own boundary cell with weight 1.", "quantifier": "all well-formed maps, all rows", "why_tests_cant": "A test fixes one grid size, guard width and one set of mapped coordinates; the claim is about every size and every map.", "anchors": ["zoidberg/weights.py:accumulate_interior_stencil", "zoidberg/weights.py:build_leg_destination_operator"]}
{"id": "C12", "title": "Every operator row sums to one up to the drop tolerance", "statement": "The entries of each boundary row sum to exactly 1. The entries of each interior row sum to exactly 1 if no non-zero X weight below 1e-10 was skipped, and differ from 1 by at most 4e-10 otherwise. Nothing is skipped if every staying mapped x index lies on a grid row or at least 1e-4 away from all rows. Constants are therefore interpolated without drift.", "quantifier": "all well-formed maps, all rows", "why_tests_cant": "A test fixes one grid size, guard width and one set of mapped coordinates; the claim is about every size and every map.", "anchors": ["zoidberg/weights.py:accumulate_interior_stencil", "zoidberg/weights.py:build_leg_destination_operator"]}
{"id": "C13", "title": "The assembled operator is the documented interpolation", "statement": "Multiplying the exported interior row with any cell field of magnitude at most M gives, up to 5e-10 M from skipped weights below 1e-10, the quadrature-weighted average over the non-boundary sub-samples of the tensor-product Catmull-Rom interpolant of that field in the neighbouring plane, periodic in z, with out-of-domain X stencil points moved to the nearest evolving row. It is exact if no non-zero weight was skipped.", "quantifier": "all cell fields and all well-formed maps", "why_tests_cant": "A test fixes one grid size, guard width and one set of mapped coordinates; the claim is about every size and every map.", "anchors": ["zoidberg/weights.py:build_leg_destination_operator", "zoidberg/weights.py:accumulate_interior_stencil"]}
{"id": "C14", "title": "Stencils are periodic in z", "statement": "Two mapped z coordinates that differ by a multiple of nz give the same operator row. (Holds when both are non-negative; the code truncates toward zero so it fails for negative non-integer z, which RectangularPoloidalGrid.findIndex does return.)", "quantifier": "all mapped z and all integers k", "why_tests_cant": "needs all real z, in particular negative ones", "anchors": ["zoidberg/weights.py:accumulate_interior_stencil", "zoidberg/poloidal_grid.py:RectangularPoloidalGrid.findIndex"]}
{"id": "C15", "title": "modify_maps(partial_boundaries=True) marks exactly the cells with an escaping sub-sample", "statement": "After the call forward_xt_prime (backward_xt_prime) is -1 at every cell (interior or guard) for which some sub-sample hits a radial boundary and is unchanged everywhere else; sub-sample arrays are not altered before the operators are computed.", "quantifier": "all maps", "why_tests_cant": "A test fixes one grid size, guard width and one set of mapped coordinates; the claim is about every size and every map.", "anchors": ["zoidberg/weights.py:modify_maps"]}
{"id": "C16", "title": "modify_maps(partial_boundaries=False) removes all partial intersections", "statement": "After filtering, in every cell either all or none of the sub-samples hit a boundary; cells that were already all-or-none keep their samples; hence every interior cell owns exactly one leg row of weight 1 in each direction.", "quantifier": "all maps", "why_tests_cant": "A test fixes one grid size, guard width and one set of mapped coordinates; the claim is about every size and every map.", "anchors": ["zoidberg/weights.py:modify_maps"]}
{"id": "C17", "title": "Boundary marks and operators are consistent", "statement": "After modify_maps, a cell of the evolving region has a boundary leg if and only if its xt_prime lies in the radial boundary. (Fails when the centre point escapes but no sub-sample does, in either mode; holds when the centre point is one of the sub-samples in partial mode.)", "quantifier": "all maps with more than one sub-sample", "why_tests_cant": "A test fixes one grid size, guard width and one set of mapped coordinates; the claim is about every size and every map.", "anchors": ["zoidberg/weights.py:modify_maps"]}
{"id": "C18", "title": "modify_maps removes the sub-sample arrays and keeps everything else", "statement": "The returned dictionary is the same object, contains no forward/backward_(x|z)t_primes and no subcell_weights, contains the operator arrays, and every other key keeps its value (apart from xt_prime marking). A second call on the result raises KeyError.", "quantifier": "all map dictionaries", "why_tests_cant": "A test fixes one grid size, guard width and one set of mapped coordinates; the claim is about every size and every map.", "anchors": ["zoidberg/weights.py:modify_maps"]}
{"id": "C19", "title": "Periodic lookup of poloidal grids", "statement": "On a y-periodic grid getPoloidalGrid(i + k*ny) returns the poloidal grid of i and y_i + k*Ly, for every integer i, k (also negative).", "quantifier": "all grids with ny >= 1, all integers i, k", "why_tests_cant": "unbounded index range", "anchors": ["zoidberg/grid.py:Grid.getPoloidalGrid"]}
{"id": "C20", "title": "y_last <= y <= y_next", "statement": "For increasing y coordinates (spanning at most Ly if periodic, inside [0,Ly] if not) getPoloidalGrid(i-1).y <= getPoloidalGrid(i).y <= getPoloidalGrid(i+1).y for every integer i.", "quantifier": "all integer indices, all increasing coordinate lists", "why_tests_cant": "documented invariant over an unbounded range", "anchors": ["zoidberg/grid.py:Grid", "zoidberg/grid.py:Grid.getPoloidalGrid"]}
{"id": "C21", "title": "Non-periodic grids end", "statement": "On a non-periodic grid getPoloidalGrid(i) is (grid_i, y_i) for 0 <= i < ny, (None, 0) for i < 0 and (None, Ly) for i >= ny.", "quantifier": "all integer indices", "why_tests_cant": "unbounded index range", "anchors": ["zoidberg/grid.py:Grid.getPoloidalGrid"]}
{"id": "C22", "title": "Fractional indices interpolate y", "statement": "getPoloidalGrid(i+f) returns no grid and the y value at fraction f between y_i and y_{i+1}. (Holds for f = 1/2, the only value make_maps uses; for other f the code interpolates with 1-f.)", "quantifier": "all integers i, all fractions 0<f<1", "why_tests_cant": "continuous parameter", "anchors": ["zoidberg/grid.py:Grid.getPoloidalGrid"]}
{"id": "C23", "title": "A Jacobian is taken from all slices or none", "statement": "Grid.metric succeeds its consistency assertions if and only if all poloidal grids provide J or none does, and J is in the result exactly in the former case.", "quantifier": "all lists of poloidal grids", "why_tests_cant": "every interleaving of slices with and without J", "anchors": ["zoidberg/grid.py:Grid.metric"]}
{"id": "C24", "title": "dy of uniform and of increasing grids", "statement": "For uniformly spaced y the dy metric equals the spacing at every point; for strictly increasing y it is positive everywhere; with a single slice it is Ly.", "quantifier": "all coordinate lists", "why_tests_cant": "A test fixes one grid size, guard width and one set of mapped coordinates; the claim is about every size and every map.", "anchors": ["zoidberg/grid.py:Grid.metric"]}
{"id": "C25", "title": "dy respects periodicity at the ends", "statement": "On a periodic grid dy[0] = (y_1 - y_{-1})/2 with y_{-1} = y_{ny-1} - Ly. (Fails for non-uniform spacing: the array is cut before differentiating, so a one-sided difference is used.)", "quantifier": "all periodic coordinate lists", "why_tests_cant": "A test fixes one grid size, guard width and one set of mapped coordinates; the claim is about every size and every map.", "anchors": ["zoidberg/grid.py:Grid.metric"]}
{"id": "C26", "title": "rectangular_grid spacing", "statement": "For rectangular_grid the y coordinates are uniform with spacing Ly/ny, lie in [0,Ly], and consecutive lookups through getPoloidalGrid differ by exactly Ly/ny everywhere when periodic.", "quantifier": "all sizes and lengths", "why_tests_cant": "A test fixes one grid size, guard width and one set of mapped coordinates; the claim is about every size and every map.", "anchors": ["zoidberg/grid.py:rectangular_grid"]}
{"id": "C27", "title": "get_metric can be repeated", "statement": "Calling get_metric twice on the same grid and field returns the same metric both times, and grid.metric() is not changed by it. (True for the value returned in cylindrical coordinates; false in Cartesian coordinates unless |B|=|By|, because the cached dictionary is modified in place.)", "quantifier": "all grids, fields and call histories", "why_tests_cant": "a property of call histories", "anchors": ["zoidberg/zoidberg.py:get_metric", "zoidberg/grid.py:Grid.metric"]}
{"id": "C28", "title": "Parallel metric components are reciprocal and bounded", "statement": "From a fresh cache, get_metric returns g_yy*gyy = 1 wherever R and By are non-zero, and g_yy >= R^2 (cylindrical) or >= 1 (Cartesian).", "quantifier": "all fields with By != 0", "why_tests_cant": "continuous data", "anchors": ["zoidberg/zoidberg.py:get_metric"]}
{"id": "C29", "title": "Writing the metric resets the cache", "statement": "After MapWriter._write_metric completes, grid.metric() recomputes pristine values, so add_maps may be called repeatedly and writes the same metric each time.", "quantifier": "all histories of add_maps calls", "why_tests_cant": "history property", "anchors": ["zoidberg/zoidberg.py:MapWriter._write_metric", "zoidberg/grid.py:Grid.metric"]}
{"id": "C30", "title": "Names of parallel slice fields are unique", "statement": "parallel_slice_field_name(f,o) = parallel_slice_field_name(f',o') implies f=f' and o=o' for plain field names (the part before the first underscore is not forward or backward, the part after the last underscore is not a number and the name does not end in _cell_ylow or _cell_yhigh) and all offsets that are non-zero integers or +-1/2; every other offset with |offset|<1 is rejected. Without the restriction names collide.", "quantifier": "all field names and offsets", "why_tests_cant": "infinitely many names", "anchors": ["zoidberg/zoidberg.py:parallel_slice_field_name"]}
{"id": "C31", "title": "make_maps returns the documented set of arrays", "statement": "The result has R, Z, MXG, MYG, subcell_weights, for every offset +-1..+-nslice the six arrays R, Z, xt_prime, zt_prime, xt_primes, zt_primes, R/Z at the half cells, By and (unless Slab) Ly at three positions and J, and no *t_prime* array for half cells.", "quantifier": "all nslice >= 0", "why_tests_cant": "nslice unbounded", "anchors": ["zoidberg/zoidberg.py:make_maps"]}
{"id": "C32", "title": "A slice index is -1 exactly where the field line leaves the domain in y or through the boundary", "statement": "For every offset and y index, xt_prime is -1 if the target slice does not exist, or the traced point lies outside the field's boundary, and otherwise the index findIndex gives for the traced end point on the target poloidal grid; the stored R, Z are the traced end points.", "quantifier": "all grids, nslice, tracers, (y-independent) boundaries", "why_tests_cant": "all y indices and offsets at once", "anchors": ["zoidberg/zoidberg.py:make_maps"]}
{"id": "C33", "title": "Sub-sample maps are filled for every offset", "statement": "With one sample per cell xt_primes[...,0] equals xt_prime for every offset. (True for nslice=1; false for nslice >= 2, where only the largest offset is filled and the others stay zero, so modify_maps treats every cell as escaping.)", "quantifier": "all nslice and grids", "why_tests_cant": "needs nslice >= 2", "anchors": ["zoidberg/zoidberg.py:make_maps", "zoidberg/weights.py:modify_maps"]}
{"id": "C34", "title": "Sub-sample start points are the quadrature points of the cell", "statement": "Sample s of cell (x,z) starts at the grid position (x+xo_s, z+zo_s). (Fails: R is taken at (x+xo, z) and Z at (x+zo, z); the z offset is never applied to the z index.)", "quantifier": "all grids and quadrature orders", "why_tests_cant": "needs samples_per_dim > 1", "anchors": ["zoidberg/zoidberg.py:make_maps"]}
{"id": "C35", "title": "Every cell of J, Ly and By is written exactly once", "statement": "For all nx and n_chunks >= 1 the chunks of x indices partition 0..nx-1 in order, so no entry of the np.empty arrays is left uninitialised.", "quantifier": "all nx, n_chunks", "why_tests_cant": "all chunkings", "anchors": ["zoidberg/zoidberg.py:make_maps"]}
{"id": "C36", "title": "Windows of the parallel integral", "statement": "For refine_parallel_integral >= 1 the trace around plane j has 4r+1 points; the three length windows are [0..2r], [r..3r], [2r..4r]; the kept window has 2r+1 points, its centre is the starting point and its ends lie half-way to the neighbouring planes; trapezoid weights sum to 2r so a constant integrand is integrated exactly. For r=0 the slice is empty.", "quantifier": "all r", "why_tests_cant": "all r", "anchors": ["zoidberg/zoidberg.py:make_maps"]}
{"id": "C37", "title": "Metric renaming loses nothing", "statement": "update_metric_names renames exactly the eight tensor components with the three cell positions, keeps the values, and never merges two entries unless an old name was already present; applying it twice equals applying it once.", "quantifier": "all dictionaries", "why_tests_cant": "A test fixes one grid size, guard width and one set of mapped coordinates; the claim is about every size and every map.", "anchors": ["zoidberg/zoidberg.py:update_metric_names"]}
{"id": "C38", "title": "No non-finite array reaches the grid file", "statement": "write_dict either writes all entries in order, or raises at the first array with a non-finite value, having written exactly the entries before it; it never writes when the file is closed.", "quantifier": "all dictionaries and writer states", "why_tests_cant": "every prefix", "anchors": ["zoidberg/zoidberg.py:MapWriter.write_dict"]}
{"id": "C39", "title": "Unwrapped slice coordinates", "statement": "In _write_par_metric for a periodic uniform grid the y coordinates passed for slice `offset` are strictly monotonic and equal to getPoloidalGrid(i+offset).y up to one common multiple of Ly, for every offset.", "quantifier": "all ny >= 2, offsets, lengths, both signs of Ly", "why_tests_cant": "A test fixes one grid size, guard width and one set of mapped coordinates; the claim is about every size and every map.", "anchors": ["zoidberg/zoidberg.py:MapWriter._write_par_metric"]}
{"id": "C40", "title": "add_dagp survives interruption", "statement": "Any number of runs of add_dagp interrupted at arbitrary write operations, followed by one complete run on the same grid, leaves in the file the same coefficients as one uninterrupted run.", "quantifier": "all crash points, all numbers of crashes", "why_tests_cant": "crash points", "anchors": ["zoidberg/zoidberg.py:MapWriter.add_dagp"]}
{"id": "C41", "title": "Updating file attributes never destroys old ones", "statement": "_final(update=True) terminates, and every attribute value that was in the file before is still present afterwards, either under its own name or under a fresh old*_ name.", "quantifier": "all sets of existing attributes", "why_tests_cant": "unbounded histories of updates", "anchors": ["zoidberg/zoidberg.py:MapWriter._final"]}
{"id": "C42", "title": "MapWriter ordering protocol", "statement": "add_maps needs open file, field and grid; if field or grid is missing it raises but the maps have already been written; nx, ny, nz, ixseps are written only by a run that completed.", "quantifier": "all call sequences", "why_tests_cant": "state machine over all sequences", "anchors": ["zoidberg/zoidberg.py:MapWriter"]}
{"id": "C43", "title": "upscale index order", "statement": "The reshaping in upscale puts element (factor f, x, y, z) at (x, y*factor+f, z): a bijection onto the output shape, preserving order along the field line.", "quantifier": "all shapes and factors", "why_tests_cant": "A test fixes one grid size, guard width and one set of mapped coordinates; the claim is about every size and every map.", "anchors": ["zoidberg/zoidberg.py:upscale"]}
{"id": "C44", "title": "Rectangular grid index and coordinate are inverse", "statement": "For nx > 2*MXG, nz >= 1, Lx, Lz != 0: findIndex(getCoordinate(x,z)) = (x,z) and getCoordinate(findIndex(R,Z)) = (R,Z) for all real inputs.", "quantifier": "all reals", "why_tests_cant": "continuous", "anchors": ["zoidberg/poloidal_grid.py:RectangularPoloidalGrid"]}
{"id": "C45", "title": "Rectangular grid is centred with the boundary half-way between guard and domain", "statement": "Coordinate (MXG-1/2) in x is Rcentre-Lx/2, nx-MXG-1/2 is Rcentre+Lx/2, index (nx-1)/2 is Rcentre; in z, -1/2 and nz-1/2 are Zcentre -+ Lz/2.", "quantifier": "all sizes", "why_tests_cant": "all parameters", "anchors": ["zoidberg/poloidal_grid.py:RectangularPoloidalGrid.__init__"]}
{"id": "C46", "title": "Higher derivatives of the rectangular grid vanish", "statement": "getCoordinate with dx+dz >= 2 returns zeros. (False: the test is > 2, so dx=2 returns the position and dx=dz=1 returns dR.)", "quantifier": "all derivative orders", "why_tests_cant": "all orders", "anchors": ["zoidberg/poloidal_grid.py:RectangularPoloidalGrid.getCoordinate"]}
{"id": "C47", "title": "findIndex returns a converged index or a boundary marker", "statement": "If StructuredPoloidalGrid.findIndex returns, each x index is -1, nx, or in [1/2, nx-3/2], and in the last case getCoordinate at the returned index is within tolerance of the requested point.", "quantifier": "all coordinate maps, points, tolerances", "why_tests_cant": "all inputs to a Newton iteration", "anchors": ["zoidberg/poloidal_grid.py:StructuredPoloidalGrid.findIndex"]}
{"id": "C48", "title": "findIndex terminates and never leaves the index range", "statement": "findIndex evaluates the coordinates at most 1000 times, and never raises 'x index out of range': every iterate of x stays in [0,nx-1].", "quantifier": "all coordinate maps and points", "why_tests_cant": "all iteration histories", "anchors": ["zoidberg/poloidal_grid.py:StructuredPoloidalGrid.findIndex", "zoidberg/poloidal_grid.py:StructuredPoloidalGrid.getCoordinate"]}
{"id": "C49", "title": "Poloidal metric is a positive definite inverse pair with the right area", "statement": "Whenever metric() passes its assertions g*ginv=I, g is positive definite, and sqrt(g_xx g_zz - g_xz^2)*dx*dz is the area |dR/dx dZ/dz - dR/dz dZ/dx| of a unit index cell.", "quantifier": "all coordinate derivatives", "why_tests_cant": "continuous", "anchors": ["zoidberg/poloidal_grid.py:StructuredPoloidalGrid.metric"]}
{"id": "C50", "title": "grid_annulus lies between its boundaries", "statement": "Row 0 of grid_annulus is the inner line, row nx-1 the outer line, and row i is the point at fraction i/(nx-1) on the straight segment between them.", "quantifier": "all lines, nx >= 2", "why_tests_cant": "all sizes", "anchors": ["zoidberg/poloidal_grid.py:grid_annulus"]}
{"id": "C51", "title": "grid_elliptic keeps its boundary rows and size", "statement": "Every Jacobi sweep leaves row 0 and row nx-1 unchanged, so the converged grid still has the given inner and outer lines; the result has nx rows including nx_inner and nx_outer extra ones, which continue the last two rows linearly.", "quantifier": "all starting grids, all iteration counts", "why_tests_cant": "all iterations", "anchors": ["zoidberg/poloidal_grid.py:grid_elliptic"]}
{"id": "C52", "title": "A converged elliptic grid satisfies the documented equation", "statement": "A fixed point of the sweep satisfies the central-difference form of a*R_xx - 2*b*R_xz + c*R_zz = 0. (True for dz_relax=1; with the default dz_relax=10/3 it satisfies a scaled equation.)", "quantifier": "all grids with non-degenerate coefficients", "why_tests_cant": "all grids", "anchors": ["zoidberg/poloidal_grid.py:grid_elliptic"]}
{"id": "C53", "title": "Coarsening recursion terminates", "statement": "For restrict_factor >= 2 and restrict_size >= 2 the recursive coarsening reaches a level with nx, nz <= restrict_size after finitely many steps with all sizes >= 2 on the way when restrict_size >= 3; for restrict_factor = 1 it never ends.", "quantifier": "all sizes", "why_tests_cant": "all sizes", "anchors": ["zoidberg/poloidal_grid.py:grid_elliptic"]}
{"id": "C54", "title": "RZline is always anticlockwise", "statement": "For every closed polygon whose orientation sum is non-zero, the stored line is the input or its reversal, has negative orientation sum (the second assertion never fails), i.e. is anticlockwise; a zero sum raises AssertionError.", "quantifier": "all point lists", "why_tests_cant": "all polygons", "anchors": ["zoidberg/rzline.py:RZline.__init__"]}
{"id": "C55", "title": "Polygon position joins control points by straight lines", "statement": "positionPolygon(k*dtheta + f*dtheta) is the point at fraction f on the segment from control point k to k+1 and is 2 pi periodic. (True at f=0; otherwise the remainder is not divided by dtheta, and negative angles pick the wrong segment.)", "quantifier": "all angles", "why_tests_cant": "continuous", "anchors": ["zoidberg/rzline.py:RZline.positionPolygon"]}
{"id": "C56", "title": "distance() is a cumulative arc length", "statement": "For spline order 1 distance() has n+1 entries, starts at 0, is non-decreasing, its increments are the (weighted) segment lengths and it ends at the perimeter.", "quantifier": "all lines and non-negative weights", "why_tests_cant": "all lines", "anchors": ["zoidberg/rzline.py:RZline.distance"]}
{"id": "C57", "title": "line_from_points uses every point exactly once", "statement": "For n >= 2 points every candidate ordering, and hence the returned line, is a permutation of the input points; the line is a nearest-neighbour tour from one of the points and no candidate is shorter.", "quantifier": "all point sets", "why_tests_cant": "all inputs", "anchors": ["zoidberg/rzline.py:line_from_points"]}
{"id": "C58", "title": "line_from_points_poly uses every point exactly once", "statement": "For n >= 3 the returned control points are a permutation of the input, whatever closest angle in [0,2pi) is found at each insertion.", "quantifier": "all point sets, all closest-point answers", "why_tests_cant": "all inputs", "anchors": ["zoidberg/rzline.py:line_from_points_poly"]}
{"id": "C59", "title": "line_from_points_fast and hull orderings permute the points", "statement": "Sorting by angle returns a permutation of the input sorted by angle about the mean.", "quantifier": "all point sets", "why_tests_cant": "all inputs", "anchors": ["zoidberg/rzline.py:line_from_points_fast"]}
{"id": "C60", "title": "2-opt keeps the points, never lengthens the route and terminates", "statement": "two_opt returns a permutation starting with the first city whose closed length is at most the initial one; it terminates for every threshold >= 0 when there are at least four cities. (For three or fewer cities and threshold < 1 it loops forever.)", "quantifier": "all city sets", "why_tests_cant": "termination", "anchors": ["zoidberg/rzline.py:line_from_points_two_opt"]}
{"id": "C61", "title": "closestPoint returns an angle in [0, 2pi)", "statement": "and its first refinement starts from the nearest control point, ties to the lowest index.", "quantifier": "all lines and points", "why_tests_cant": "all inputs", "anchors": ["zoidberg/rzline.py:RZline.closestPoint"]}
{"id": "C62", "title": "Rectangular boundary", "statement": "outside(x,y,z) is true exactly when (x,z) is not in the closed box, independent of y.", "quantifier": "all points", "why_tests_cant": "continuous", "anchors": ["zoidberg/boundary.py:RectangularBoundaryXZ.outside", "zoidberg/boundary.py:NoBoundary.outside"]}
{"id": "C63", "title": "Polygon boundary is the even-odd rule", "statement": "For a point whose x differs from every vertex x, outside is true exactly if the vertical ray upward meets an even number of edges (edges with |dx|<1e-6 excluded); points beyond the bounding box are outside; the answer does not depend on starting vertex or direction. (For a ray through a vertex both edges are counted: the centre of a diamond is reported outside.)", "quantifier": "all polygons and points", "why_tests_cant": "continuous", "anchors": ["zoidberg/boundary.py:PolygonBoundaryXZ.outside"]}
{"id": "C64", "title": "c4 is exact for quartics at every point", "statement": "For n >= 5 samples c4 returns the exact derivative of every polynomial of degree <= 4 at all n points including the four edge points; the periodic version at every point where the stencil does not wrap.", "quantifier": "all n >= 5, all quartics", "why_tests_cant": "all n and polynomials", "anchors": ["zoidberg/diff.py:c4"]}
{"id": "C65", "title": "c2 is second order everywhere", "statement": "c2 is exact for quadratics at every point. (True in the interior; at the two edge points only affine functions are exact.)", "quantifier": "all n >= 3, all quadratics", "why_tests_cant": "the existing test uses sin at 0 where the second derivative vanishes", "anchors": ["zoidberg/diff.py:c2"]}
{"id": "C66", "title": "Periodic differences conserve and commute with shifts", "statement": "The periodic c2 and c4 of any array sum to zero and commute with rotation.", "quantifier": "all arrays", "why_tests_cant": "all arrays", "anchors": ["zoidberg/diff.py:c2", "zoidberg/diff.py:c4"]}
{"id": "C67", "title": "field_line_length is at least the chord", "statement": "For any interpolant, the computed length is at least the straight distance between the first and last point and equals the sum over any split.", "quantifier": "all traces", "why_tests_cant": "all curves", "anchors": ["zoidberg/diff.py:field_line_length"]}
{"id": "C68", "title": "Chunking does not change traced field lines", "statement": "follow_field_lines gives for every starting point the same result whether traced alone or within a chunk, in input order, with the shape of the input, assuming the integrator treats lines independently.", "quantifier": "all numbers of points, all shapes", "why_tests_cant": "sizes above and below 1000", "anchors": ["zoidberg/fieldtracer.py:FieldTracer.follow_field_lines"]}
{"id": "C69", "title": "Input validation of tracers", "statement": "follow_field_lines raises ValueError exactly when fewer than two y values are given, y is not one-dimensional, or x and z differ in shape and neither has one element.", "quantifier": "all shapes", "why_tests_cant": "all shapes", "anchors": ["zoidberg/fieldtracer.py:FieldTracer.follow_field_lines"]}
{"id": "C70", "title": "FieldTracerReversible is reversible", "statement": "For fields affine in position the Newton iteration returns the exact trapezoidal step, and tracing forward then backward returns exactly to the start; in general the trapezoidal relation is symmetric under reversal.", "quantifier": "all affine fields, step counts", "why_tests_cant": "all fields and steps", "anchors": ["zoidberg/fieldtracer.py:FieldTracerReversible.follow_field_lines"]}
{"id": "C71", "title": "Tracers do not modify their input", "statement": "After follow_field_lines the caller's arrays are unchanged. (False for FieldTracerReversible with equal-shape float arrays: they end up holding the end points.)", "quantifier": "all inputs", "why_tests_cant": "aliasing", "anchors": ["zoidberg/fieldtracer.py:FieldTracerReversible.follow_field_lines"]}
{"id": "C72", "title": "trace_poincare returns the requested planes", "statement": "result[r,p] is the position at y = y_slices[p] + r*yperiod with y_slices sorted; over-sampling with any nover >= 1 inserts points between and removes exactly those.", "quantifier": "all revs >= 1, nplot >= 1, nover >= 1", "why_tests_cant": "all sizes", "anchors": ["zoidberg/fieldtracer.py:trace_poincare"]}
{"id": "C73", "title": "Caching is transparent", "statement": "Over any history of calls with the same keyword arguments on one tracer, and distinct keys for distinct arguments, every call returns what the wrapped tracer returns. (Fails if keyword arguments such as rtol change, or two argument lists share a key.)", "quantifier": "all call histories", "why_tests_cant": "history property", "anchors": ["zoidberg/fieldtracer.py:CachingFieldTracer.follow_field_lines"]}
{"id": "C74", "title": "Web tracer retries", "statement": "follow_field_lines succeeds with all chunks in order exactly when the total number of failures over all chunks is less than retry, for every failure schedule.", "quantifier": "all schedules of failures", "why_tests_cant": "schedules", "anchors": ["zoidberg/fieldtracer.py:FieldTracerWeb.follow_field_lines"]}
{"id": "C75", "title": "EMC3 angle reduction", "statement": "makeMesh ends with an angle in [pmin,pmax] and phi_final = phi + perBC*(pmax-pmin), after finitely many steps, when pmax > pmin.", "quantifier": "all angles", "why_tests_cant": "unbounded", "anchors": ["zoidberg/fieldtracer.py:EMC3FieldTracer.makeMesh"]}
{"id": "C76", "title": "EMC3 cell coordinates round-trip", "statement": "_ab_to_rz is the bilinear map with the four corners at the unit square corners, and any (a,b) with zero residual maps back to the given point; the nearest-node fallback picks a cell touching that node. (The fallback is false: node numbers are used as cell numbers.)", "quantifier": "all meshes", "why_tests_cant": "all meshes", "anchors": ["zoidberg/fieldtracer.py:EMC3FieldTracer._ab_to_rz", "zoidberg/fieldtracer.py:EMC3FieldTracer._rz_to_ab", "zoidberg/fieldtracer.py:EMC3FieldTracer.rz_to_ab"]}
{"id": "C77", "title": "rtol overrides targetError in FusionSCTracer", "statement": "Passing rtol changes the targetError used. (False: the copied kwargs are not passed on.)", "quantifier": "all kwargs", "why_tests_cant": "all kwargs", "anchors": ["zoidberg/fieldtracer.py:FusionSCTracer.follow_field_lines"]}
{"id": "C78", "title": "field_direction", "statement": "Returns (R Bx/By, R Bz/By) for every point in order, interleaved when flattened, and raises exactly if some |By| < 1e-8.", "quantifier": "all fields and positions", "why_tests_cant": "all arrays", "anchors": ["zoidberg/field.py:MagneticField.field_direction"]}
{"id": "C79", "title": "Stellarator fields are divergence free and derive from A", "statement": "Away from the coils Bx = -dA/dz and Bz = dA/dx for every coil configuration, so the planar divergence vanishes; the coils return after yperiod.", "quantifier": "all positions, currents, angles", "why_tests_cant": "continuous", "anchors": ["zoidberg/field.py:StraightStellarator", "zoidberg/field.py:RotatingEllipse"]}
{"id": "C80", "title": "Screwpinch field lines stay on circles", "statement": "The field is tangent to circles about the axis, so the radius is a constant of motion along every field line.", "quantifier": "all points", "why_tests_cant": "continuous", "anchors": ["zoidberg/field.py:Screwpinch"]}
{"id": "C81", "title": "Slab field lines have the closed form", "statement": "Field lines of Slab keep x and advance z by (Bz + (x-xcentre) Bzprime)/By * dy.", "quantifier": "all parameters", "why_tests_cant": "continuous", "anchors": ["zoidberg/field.py:Slab"]}
{"id": "C82", "title": "Attributes of one field do not leak into another", "statement": "Constructing a GEQDSK field does not change the attributes of other fields. (False: the dictionary is a class attribute shared by all fields.)", "quantifier": "all construction histories", "why_tests_cant": "history property", "anchors": ["zoidberg/field.py:MagneticField", "zoidberg/field.py:GEQDSK.__init__"]}
{"id": "C83", "title": "Cell volumes of rectangular grids", "statement": "For a RectangularPoloidalGrid dagp_fv_volume is dR*dZ (slab) or R*dR*dZ (cylindrical) in every interior cell, for any number of sample points on the outline.", "quantifier": "all rectangular grids", "why_tests_cant": "all sizes", "anchors": ["zoidberg/stencil_dagp_fv.py:doit"]}
{"id": "C84", "title": "DAGP fluxes are exact for linear functions", "statement": "The face coefficients reproduce gradient . area-vector exactly for every linear function, and in slab geometry the face area vectors of a cell add up to zero, so linear functions have zero discrete divergence.", "quantifier": "all grids with non-singular stencils", "why_tests_cant": "continuous", "anchors": ["zoidberg/stencil_dagp_fv.py:doit"]}
{"id": "C85", "title": "DAGP is conservative", "statement": "The sum over all cells of the face-flux differences is zero before boundary rows are cleared, for every field and all coefficients.", "quantifier": "all fields, coefficients", "why_tests_cant": "all arrays", "anchors": ["zoidberg/stencil_dagp_fv.py:test"]}
{"id": "C86", "title": "DAGP coefficients survive write and load", "statement": "fixup2(fixup(c)) = c for both coefficient shapes, with zeros in the padding rows.", "quantifier": "all arrays", "why_tests_cant": "A test fixes one grid size, guard width and one set of mapped coordinates; the claim is about every size and every map.", "anchors": ["zoidberg/stencil_dagp_fv.py:fixup", "zoidberg/stencil_dagp_fv.py:fixup2", "zoidberg/stencil_dagp_fv.py:write", "zoidberg/stencil_dagp_fv.py:load"]}
{"id": "C87", "title": "Exported volume is determined by the grid", "statement": "(False on the first and last x row, which come from np.empty and are never assigned; true elsewhere.)", "quantifier": "all grids, all initial memory contents", "why_tests_cant": "uninitialised memory", "anchors": ["zoidberg/stencil_dagp_fv.py:doit"]}
{"id": "C88", "title": "Runs of points to smooth", "statement": "generate_points_tosmooth returns the maximal runs of consecutive indices, in increasing order, whose union is the union of the windows around the outliers cut at the array end; each has at least bounds+1 entries.", "quantifier": "all outlier lists, bounds, lengths", "why_tests_cant": "all inputs", "anchors": ["zoidberg/smooth.py:generate_points_tosmooth"]}
{"id": "C89", "title": "rollup replaces exactly one cyclic window", "statement": "rollup(a,s,len,rep) equals a except at indices (s+i) mod n, i < len <= n, where it is rep[i].", "quantifier": "all arrays, negative and positive starts", "why_tests_cant": "all inputs", "anchors": ["zoidberg/smooth.py:rollup"]}
{"id": "C90", "title": "smooth does not index past the end", "statement": "(False: a run that ends at the last index makes gen_newr read newr[len].)", "quantifier": "all runs", "why_tests_cant": "needs a corner near the array end", "anchors": ["zoidberg/smooth.py:gen_newr"]}
{"id": "C91", "title": "smooth terminates", "statement": "The loop runs at most 4*bounds+1 times for bounds >= 1.", "quantifier": "all success/failure histories", "why_tests_cant": "all histories", "anchors": ["zoidberg/smooth.py:smooth"]}
{"id": "C92", "title": "format_time is an exact mixed-radix decomposition", "statement": "For whole seconds the printed days, hours, minutes and seconds add up to the input, with minutes, seconds < 60 and hours < 24.", "quantifier": "all durations", "why_tests_cant": "unbounded", "anchors": ["zoidberg/progress.py:format_time"]}
{"id": "C93", "title": "Progress bar stays in its frame", "statement": "The number of filled blocks is between 0 and barLength for every progress value, and the special bar has constant width.", "quantifier": "all progress values and lengths", "why_tests_cant": "continuous", "anchors": ["zoidberg/progress.py:update_progress"]}
{"id": "C94", "title": "Spectral line resampling gives distinct points", "statement": "(False: linspace includes the end point, so the first and last point coincide, against RZline's requirement.)", "quantifier": "all num", "why_tests_cant": "all inputs", "anchors": ["zoidberg/spectralline.py:SpectralLine.equallySpaced"]}
{"id": "C95", "title": "A failed metric write does not influence later ones", "statement": "If MapWriter._write_metric raises (for example because an entry of the maps is missing, a value is not finite or the file is closed), a later successful call on the same grid writes the same metric as on a fresh grid. (True in cylindrical coordinates; false in Cartesian coordinates, where the cached metric has already been scaled by the failed call.)", "quantifier": "all grids, fields, maps, failure points and histories", "why_tests_cant": "a property of histories with failures at arbitrary points", "anchors": ["zoidberg/zoidberg.py:MapWriter._write_metric", "zoidberg/zoidberg.py:get_metric"]}
{"id": "C96", "title": "n_chunks does not change the maps", "statement": "Two calls of make_maps that differ only in n_chunks >= 1 return the same values at every point of the domain, provided the tracer moves every point independently of the others.", "quantifier": "all grids, tracers, nslice, refinements and chunk counts", "why_tests_cant": "all chunk counts at once", "anchors": ["zoidberg/zoidberg.py:make_maps"]}
{"id": "C97", "title": "Sub-cell weights are a partition of unity", "statement": "subcell_weights has samples_per_dim^2 entries, all positive, and they add up to one.", "quantifier": "all samples_per_dim >= 1 and quadrature rules with positive weights that sum to 2", "why_tests_cant": "all orders of quadrature", "anchors": ["zoidberg/zoidberg.py:make_maps"]}
{"id": "C98", "title": "The grid file contains the metric under the documented names", "statement": "After MapWriter wrote the metric without an exception, every entry of get_metric is in the file under its documented name (g_22, g11, ..., or unchanged with new_names=True), reduced to two dimensions only with metric2d; g_22 and its values at the faces are (Ly/dy)^2 if the maps have the field line lengths and otherwise all equal to the value of get_metric; the attributes of the field are in the file at every grid point.", "quantifier": "all grids, fields, maps, writer configurations and previous file contents", "why_tests_cant": "all combinations of options and maps", "anchors": ["zoidberg/zoidberg.py:MapWriter._write_metric", "zoidberg/zoidberg.py:MapWriter.write_dict"]}
{"id": "C99", "title": "Parallel metric components in the file are reciprocal", "statement": "In the grid file g_22 * g22 = 1 in every cell where the field and the major radius do not vanish. (False when the maps have field line lengths: g_22 is replaced, g22 is not.)", "quantifier": "all grids, fields and maps", "why_tests_cant": "all maps", "anchors": ["zoidberg/zoidberg.py:MapWriter._write_metric"]}
{"id": "C100", "title": "Periodic grids with increasing planes can be written", "statement": "_write_par_metric gives every slice of a periodic grid whose planes increase within one period its unwrapped coordinates, for every offset, whenever Ly passes the check against ny*mean(dy). (False: the check on the mean of the rolled coordinates rejects some grids that are not uniform.)", "quantifier": "all increasing coordinate lists within a period, all offsets", "why_tests_cant": "grid spacings and offsets are unbounded", "anchors": ["zoidberg/zoidberg.py:MapWriter._write_par_metric"]}
{"id": "C101", "title": "The metric of every parallel slice is in the file", "statement": "After _write_par_metric without exception the file has, for every slice -nslice..nslice except 0, every entry of the metric of the grid of the traced positions under the name of that slice, and no other variable has changed; it does succeed on uniform periodic grids with finite metric.", "quantifier": "all numbers of slices, maps, fields, file contents", "why_tests_cant": "all combinations of slices and file contents", "anchors": ["zoidberg/zoidberg.py:MapWriter._write_par_metric", "zoidberg/zoidberg.py:parallel_slice_field_name"]}
{"id": "C102", "title": "Slice coordinates on open grids", "statement": "On a uniform grid that is not periodic the coordinate of slice n at plane i is y_i + n*dy. (False: np.roll wraps the coordinates around the end.)", "quantifier": "all uniform coordinate lists and offsets", "why_tests_cant": "all sizes and offsets", "anchors": ["zoidberg/zoidberg.py:MapWriter._write_par_metric"]}
{"id": "C103", "title": "add_dagp writes the coefficients of the current grid", "statement": "After a complete run of add_dagp the file has the coefficients of the grid of the writer, whatever was in the file. (False: the stored progress is not tied to the grid.)", "quantifier": "all file contents and grids", "why_tests_cant": "histories of runs with different grids", "anchors": ["zoidberg/zoidberg.py:MapWriter.add_dagp"]}
{"id": "C104", "title": "An interrupted update of the attributes loses nothing", "statement": "If the process is stopped at any point of _final(update=True), every attribute value that was in the file is still there. (False: new values are written first.)", "quantifier": "all existing attributes and crash points", "why_tests_cant": "crash points", "anchors": ["zoidberg/zoidberg.py:MapWriter._final"]}
{"id": "C105", "title": "write_maps leaves a complete grid file", "statement": "When write_maps returns, the file is closed and holds the sizes of the grid, the identifying attributes, every metric component under its documented name with the values of get_metric and the field line lengths, the metric of every parallel slice, the attributes of the magnetic field evaluated on the grid, and every map entry that no later step stores again; for periodic uniform grids with finite arrays and complete maps it does return.", "quantifier": "all grids, fields, maps, previous file contents and options", "why_tests_cant": "the whole pipeline, for all contents", "anchors": ["zoidberg/zoidberg.py:write_maps", "zoidberg/zoidberg.py:MapWriter.add_maps", "zoidberg/zoidberg.py:MapWriter._write_metric", "zoidberg/zoidberg.py:MapWriter._write_par_metric", "zoidberg/zoidberg.py:MapWriter._final"]}
{"id": "C106", "title": "The sizes in the file are those of the grid", "statement": "Whatever calls were made on a MapWriter before, a successful add_maps stores nx, ny, nz of the grid that was added last. (False: opening an existing file again takes the sizes from the variable B of the file.)", "quantifier": "all call sequences, existing files", "why_tests_cant": "unbounded call sequences", "anchors": ["zoidberg/zoidberg.py:MapWriter.__enter__", "zoidberg/zoidberg.py:MapWriter.add_grid", "zoidberg/zoidberg.py:MapWriter.add_maps"]}
{"id": "C107", "title": "upscale keeps the planes it was given", "statement": "If spline and triangle interpolation are exact at the points where they have data, every upscale_factor-th plane of the result of upscale is a plane of the field that was given, for every map; a field with its axes in the opposite order is transposed first.", "quantifier": "all fields, maps, sizes and factors", "why_tests_cant": "all maps and sizes", "anchors": ["zoidberg/zoidberg.py:upscale"]}
{"id": "C108", "title": "The progress bar of upscale changes nothing", "statement": "upscale returns the same with quiet=False as with quiet=True. (False: a grid with one plane divides by ny - 1 = 0.)", "quantifier": "all fields, maps and factors", "why_tests_cant": "edge sizes", "anchors": ["zoidberg/zoidberg.py:upscale"]}
{"id": "C109", "title": "findIndex is exact where coordinates are linear", "statement": "On a structured grid whose coordinates are linear in the indices with independent derivatives, findIndex returns exactly the index of every position whose index is between 1/2 and nx-3/2 in x and 0 and nz in z and whose nearest grid point is not on the first or last row, for any number of positions at once.", "quantifier": "all linear grids, positions, tolerances", "why_tests_cant": "real-valued positions", "anchors": ["zoidberg/poloidal_grid.py:StructuredPoloidalGrid.findIndex"]}
{"id": "C110", "title": "Grid points are found at their indices", "statement": "findIndex of the coordinates of grid points returns the indices of these points. (False for points on the first and last row, which give -1 and nx.)", "quantifier": "all grids with distinct points and regular coordinates", "why_tests_cant": "all grids", "anchors": ["zoidberg/poloidal_grid.py:StructuredPoloidalGrid.findIndex"]}
{"id": "C111", "title": "Coordinates are periodic in z and exact at grid points", "statement": "getCoordinate of a structured grid does not change if a multiple of nz is added to the z index, for values and derivatives, and at integer indices it is the grid point, for every spline that is exact at its data points.", "quantifier": "all grids, indices and derivatives", "why_tests_cant": "real-valued indices", "anchors": ["zoidberg/poloidal_grid.py:StructuredPoloidalGrid.getCoordinate", "zoidberg/poloidal_grid.py:StructuredPoloidalGrid.__init__"]}
{"id": "C112", "title": "metric works exactly for regular grids", "statement": "StructuredPoloidalGrid.metric returns, rather than failing an assertion, if and only if the derivatives of the coordinates with respect to the two indices are linearly independent at every grid point, in either orientation.", "quantifier": "all grids", "why_tests_cant": "all grids", "anchors": ["zoidberg/poloidal_grid.py:StructuredPoloidalGrid.metric"]}
{"id": "C113", "title": "fft_smooth without removed modes changes nothing", "statement": "fft_smooth in grid_elliptic returns the angles it was given, modulo 2 pi, when all modes are kept. (False: the distances are used one place too early, so that all distances move by one place.)", "quantifier": "all lists of angles", "why_tests_cant": "all lists", "anchors": ["zoidberg/poloidal_grid.py:grid_elliptic"]}
{"id": "C114", "title": "Inner angles are monotonic and within maxfac_inner", "statement": "The angles that laplace in grid_elliptic returns increase from each point to the next by less than pi, and with maxfac_inner other than 1 no distance is larger than maxfac_inner times another.", "quantifier": "all lists of angles, numbers of steps and values of maxfac_inner", "why_tests_cant": "loops of unbounded length", "anchors": ["zoidberg/poloidal_grid.py:grid_elliptic"]}
{"id": "C115", "title": "Smoothing the inner angles keeps the number of turns", "statement": "With maxfac_inner other than 1 the distances between neighbouring angles after laplace are between the smallest and the largest before, and their sum is the same as before, if no two neighbours are opposite.", "quantifier": "all lists of angles, all numbers of steps", "why_tests_cant": "loops of unbounded length", "anchors": ["zoidberg/poloidal_grid.py:grid_elliptic"]}
{"id": "C116", "title": "maxfac_inner = 1 makes the inner points equally spaced", "statement": "With maxfac_inner = 1 laplace replaces increasing angles by angles with the distance 2 pi / n. (False for angles that are equally spaced already: 0/0, and the assertion fails.)", "quantifier": "all lists of increasing angles", "why_tests_cant": "needs exactly equal distances", "anchors": ["zoidberg/poloidal_grid.py:grid_elliptic"]}
{"id": "C117", "title": "New planes of upscale lie along the field lines", "statement": "Plane y*factor+m of upscale has, at every grid point through which a field line from (x, z) of plane y passes at step m, the blend (with the interpolation weight of step m/factor) of the value at the start of this line and of the field interpolated at its end in the next plane, plane 0 after the last; for straight field lines every new plane is the blend of the two planes around it.", "quantifier": "all fields, maps, sizes, factors and interpolation weights", "why_tests_cant": "all maps", "anchors": ["zoidberg/zoidberg.py:upscale"]}
{"id": "C118", "title": "closestPoint is no farther than any control point", "statement": "With its default parameters closestPoint returns an angle at which positionPolygon is no farther from the given point than any control point.", "quantifier": "all lines and points", "why_tests_cant": "continuous", "anchors": ["zoidberg/rzline.py:RZline.closestPoint"]}
{"id": "C119", "title": "equallySpaced divides the length into equal parts", "statement": "The angles of equallySpaced are those at which the linear interpolation of the (weighted) distance is i/n of the whole.", "quantifier": "all lines, weights with positive values and numbers of points", "why_tests_cant": "continuous", "anchors": ["zoidberg/rzline.py:RZline.equallySpaced"]}
{"id": "C120", "title": "equallySpaced keeps the spline order", "statement": "The line that equallySpaced returns has the same spline order as the line it is called on.", "quantifier": "all lines", "why_tests_cant": "all orders", "anchors": ["zoidberg/rzline.py:RZline.equallySpaced"]}
{"id": "C121", "title": "One bad candidate does not spoil line_from_points", "statement": "If the tour from at least one of the starting points makes a line, line_from_points returns a line.", "quantifier": "all point sets", "why_tests_cant": "needs a tour with the area zero", "anchors": ["zoidberg/rzline.py:line_from_points"]}
{"id": "C122", "title": "line_from_points_poly inserts on the edge that closestPoint found", "statement": "Every new point gets its place between the two control points of the edge of the line to which the angle returned by closestPoint belongs.", "quantifier": "all point sets, all angles", "why_tests_cant": "all configurations", "anchors": ["zoidberg/rzline.py:line_from_points_poly"]}
{"id": "C123", "title": "circle is the anticlockwise circle", "statement": "For n >= 3 and r != 0 the control points of circle(R0, r, n) are (R0 + r cos(2 pi i/n), r sin(2 pi i/n)) in this order, they lie on the circle and enclose n/2 r^2 sin(2 pi/n) > 0; for n in {1, 2} or r = 0 there is an AssertionError. shaped_line without shaping is circle.", "quantifier": "all radii and n", "why_tests_cant": "all n", "anchors": ["zoidberg/rzline.py:circle", "zoidberg/rzline.py:shaped_line"]}
{"id": "C124", "title": "Length of a circular field line", "statement": "For a field line on a circle (constant R, Z and an interpolant that is exact there) field_line_length is the perimeter of the inscribed polygon: not longer than the arc, and shorter by a relative error of at most x^2/6 with x half the step of the angle.", "quantifier": "all radii, numbers of points and refinements", "why_tests_cant": "continuous", "anchors": ["zoidberg/diff.py:field_line_length"]}
{"id": "C125", "title": "Polygon boundary of a convex polygon", "statement": "For a strictly convex anticlockwise polygon outside is false for every interior point (strictly left of all edges) and true for every point strictly right of an edge.", "quantifier": "all strictly convex polygons and points", "why_tests_cant": "continuous, all polygons", "anchors": ["zoidberg/boundary.py:PolygonBoundaryXZ.outside"]}
{"id": "C126", "title": "Polygon and rectangle agree", "statement": "PolygonBoundaryXZ of the four corners of a box and RectangularBoundaryXZ of the box report the same points as outside.", "quantifier": "all boxes and points", "why_tests_cant": "continuous", "anchors": ["zoidberg/boundary.py:PolygonBoundaryXZ.outside", "zoidberg/boundary.py:RectangularBoundaryXZ.outside"]}
{"id": "C127", "title": "The splines of RZline", "statement": "position is 2 pi periodic; without smoothing it passes through the control points at equally spaced angles if the spline interpolates; the order of the spline is the one asked for, three by default; with smoothing the knots are the centres of n//smooth+1 equal parts of the period.", "quantifier": "all control points, angles, orders and numbers of knots", "why_tests_cant": "all inputs", "anchors": ["zoidberg/rzline.py:RZline.__init__", "zoidberg/rzline.py:RZline.position"]}
{"id": "C128", "title": "Chunks given to the integrator", "statement": "FieldTracer hands the integrator never more than 1999 points at once, and never less than 1000 if there are at least 1000.", "quantifier": "all numbers of points", "why_tests_cant": "unbounded", "anchors": ["zoidberg/fieldtracer.py:FieldTracer.follow_field_lines"]}
{"id": "C129", "title": "trace_poincare leaves y_slices of the caller alone", "statement": "After trace_poincare the y_slices given hold what they held before. (False for an array that is not sorted: it is sorted in place.)", "quantifier": "all slices", "why_tests_cant": "aliasing", "anchors": ["zoidberg/fieldtracer.py:trace_poincare"]}
{"id": "C130", "title": "Results of FieldTracerReversible depend on values only", "statement": "The result is the same for lists and arrays with the same values, also when x_values and z_values are the same array. (False if they are the same array: both changes are added to it.)", "quantifier": "all inputs", "why_tests_cant": "aliasing", "anchors": ["zoidberg/fieldtracer.py:FieldTracerReversible.follow_field_lines"]}
{"id": "C131", "title": "FieldTracerReversible accepts integers", "statement": "Integer starting points give the same result as floating point numbers. (False: the in-place addition raises TypeError.)", "quantifier": "all inputs", "why_tests_cant": "types of arrays", "anchors": ["zoidberg/fieldtracer.py:FieldTracerReversible.follow_field_lines"]}
{"id": "C132", "title": "The text that is hashed determines the arguments", "statement": "Two lists of arrays for which CachingFieldTracer hashes the same text are equal. (False: nothing is written between the arrays.)", "quantifier": "all lists of arrays", "why_tests_cant": "all inputs", "anchors": ["zoidberg/fieldtracer.py:CachingFieldTracer.follow_field_lines"]}
{"id": "C133", "title": "Web tracer chunks", "statement": "A result of FieldTracerWeb does not depend on the size of the chunks, on the configuration or on the failures that were retried, and is the result of a FieldTracer for the same field lines.", "quantifier": "all inputs, chunk sizes and schedules of failures", "why_tests_cant": "schedules", "anchors": ["zoidberg/fieldtracer.py:FieldTracerWeb.follow_field_lines"]}
{"id": "C134", "title": "EMC3 lines across the end of the period", "statement": "On a plane n periods further the position has the coordinates that the point has after it was passed n times from the last mesh to the first one. (False: the coordinates of the start are used for every period.)", "quantifier": "all meshes and lines", "why_tests_cant": "all meshes", "anchors": ["zoidberg/fieldtracer.py:EMC3FieldTracer.follow_field_lines"]}
{"id": "C135", "title": "FusionSC coordinates", "statement": "If fusionsc gives the field lines in Cartesian coordinates, the result of FusionSCTracer is that of a FieldTracer for the same lines: the start, then radius and height on each plane, in the direction from the first to the second plane.", "quantifier": "all points with R >= 0, all lists of at least two planes", "why_tests_cant": "all inputs", "anchors": ["zoidberg/fieldtracer.py:FusionSCTracer.follow_field_lines"]}
{"id": "C136", "title": "RotatingEllipse is divergence free", "statement": "In cylindrical coordinates the field of RotatingEllipse has no divergence away from the coils. (False: the components are those of straight wires, the divergence is B_R/R.)", "quantifier": "all parameters and points", "why_tests_cant": "continuous", "anchors": ["zoidberg/field.py:RotatingEllipse"]}
{"id": "C137", "title": "Half of the period", "statement": "The fields of StraightStellarator and RotatingEllipse have the period yperiod/2: the four coils are turned by half a turn, so each one is where the opposite one with the same current was.", "quantifier": "all parameters and points", "why_tests_cant": "continuous", "anchors": ["zoidberg/field.py:StraightStellarator", "zoidberg/field.py:RotatingEllipse"]}
{"id": "C138", "title": "Screwpinch field and its Afunc", "statement": "The field of Screwpinch derives from its Afunc as in the other classes: Bx = -dA/dz, Bz = dA/dx. (False.)", "quantifier": "all parameters and points", "why_tests_cant": "continuous", "anchors": ["zoidberg/field.py:Screwpinch"]}
{"id": "C139", "title": "GEQDSK surfaces", "statement": "On every field line of a GEQDSK field psi is constant; the divergence in cylindrical coordinates vanishes; the normalised psi is zero on the axis and one on the boundary and outside.", "quantifier": "all psi with derivatives, all f, all points", "why_tests_cant": "continuous", "anchors": ["zoidberg/field.py:GEQDSK"]}
{"id": "C140", "title": "VMEC components", "statement": "The field of read_vmec_file is b^u dr/du + b^v dr/dv for the positions it returns, for symmetric and asymmetric equilibria; cfunct and sfunct are the Fourier sums of cos and sin of m theta + n zeta. (False for asymmetric equilibria: the signs of the terms in the derivatives are wrong.)", "quantifier": "all lists of modes and angles", "why_tests_cant": "continuous", "anchors": ["zoidberg/field.py:VMEC.read_vmec_file", "zoidberg/field.py:VMEC.cfunct", "zoidberg/field.py:VMEC.sfunct"]}
{"id": "C141", "title": "Average over the surfaces", "statement": "__rolling_average gives the mean of two neighbouring surfaces between the first and the last one, and keeps what is constant. (False for the first surfaces and the last but one.)", "quantifier": "all coefficient lists", "why_tests_cant": "all inputs", "anchors": ["zoidberg/field.py:VMEC.__rolling_average"]}
{"id": "C142", "title": "Interpolated fields are periodic", "statement": "The fields of VMEC, W7X_vacuum and W7X_VMEC have the toroidal period 2 pi, and inside the first turn are the interpolated values.", "quantifier": "all interpolators, all points and numbers of turns", "why_tests_cant": "all angles", "anchors": ["zoidberg/field.py:VMEC.Bxfunc", "zoidberg/field.py:W7X_vacuum.Bxfunc", "zoidberg/field.py:W7X_VMEC.Bxfunc"]}
{"id": "C143", "title": "Damping of SmoothedMagneticField", "statement": "smooth_field_line is between 0 and 1, 1 in the inner box, 0 on and outside of the outer box, and can be computed for every SmoothedMagneticField. (The last part is false: the limits are never set.)", "quantifier": "all nested boxes and points", "why_tests_cant": "continuous", "anchors": ["zoidberg/field.py:SmoothedMagneticField.smooth_field_line", "zoidberg/field.py:SmoothedMagneticField.__init__"]}
{"id": "C144", "title": "Saved W7X fields", "statement": "Over any history of calls W7X_vacuum.field_values gives the field for its own arguments. (False: the names have only two decimals of the limits, and old files do not name the configuration.)", "quantifier": "all histories", "why_tests_cant": "history property", "anchors": ["zoidberg/field.py:W7X_vacuum.field_values"]}
{"id": "C145", "title": "Two attempts per chunk", "statement": "_calc_chunk returns the result of the first attempt, or that of the second one if the first fails, with its exception if that fails as well.", "quantifier": "all schedules of failures", "why_tests_cant": "schedules", "anchors": ["zoidberg/field.py:W7X_vacuum_on_demand._calc_chunk"]}
{"id": "C146", "title": "Fields in Cartesian coordinates", "statement": "Bxfunc, Byfunc and Bzfunc of W7X_vacuum_on_demand and FusionSCField are the components of the Cartesian vector in the directions of R, phi and Z, and their Bmag is the magnitude.", "quantifier": "all fields and points", "why_tests_cant": "continuous", "anchors": ["zoidberg/field.py:W7X_vacuum_on_demand", "zoidberg/field.py:FusionSCField"]}
{"id": "C147", "title": "Default range of the W7X grids", "statement": "With the default arguments the points of the W7X grids have z between -1.35 and 1.35. (False: the default is (-1.35, 1, 35).)", "quantifier": "all numbers of points", "why_tests_cant": "all inputs", "anchors": ["zoidberg/field.py:W7X_vacuum.__init__", "zoidberg/field.py:W7X_VMEC.__init__"]}
{"id": "C148", "title": "W7X configurations", "statement": "A non-negative configuration number is passed on; otherwise only known configurations are accepted, and there is one current for each coil, no coil twice.", "quantifier": "all configurations", "why_tests_cant": "all inputs", "anchors": ["zoidberg/field.py:W7X_vacuum_on_demand._set_config"]}
{"id": "C149", "title": "EMC3 Bmag is filled", "statement": "After the filling no value of a column is missing, and those that were there are unchanged; missing ones are those of the spline at their distance along the column.", "quantifier": "all columns and splines", "why_tests_cant": "all inputs", "anchors": ["zoidberg/field.py:EMC3.Bmag"]}
{"id": "C150", "title": "Dommaschk fields are vacuum fields", "statement": "The field of DommaschkPotentials has neither divergence nor curl (in cylindrical coordinates), for every matrix of coefficients, at every point with R > 0.", "quantifier": "all coefficient matrices, R_0 > 0, B_0 and points", "why_tests_cant": "continuous, all orders", "anchors": ["zoidberg/field.py:DommaschkPotentials"]}
{"id": "C151", "title": "Boundary values of the Dommaschk functions", "statement": "At R = 1: D = Z^v/v!, dD/dR = 0, N = 0, dN/dR = Z^v/v!.", "quantifier": "all mode numbers and orders, all Z", "why_tests_cant": "all orders", "anchors": ["zoidberg/field.py:DommaschkPotentials.D", "zoidberg/field.py:DommaschkPotentials.N", "zoidberg/field.py:DommaschkPotentials.CD", "zoidberg/field.py:DommaschkPotentials.CN"]}
{"id": "C152", "title": "Dommaschk field at R = R_0", "statement": "On the cylinder R = R_0 the components are the given trigonometric sums in phi and polynomials in Z, and the toroidal field on the axis is B_0 unless the sum of the coefficients by which is divided is zero.", "quantifier": "all coefficient matrices", "why_tests_cant": "continuous", "anchors": ["zoidberg/field.py:DommaschkPotentials.Bxfunc", "zoidberg/field.py:DommaschkPotentials.Byfunc", "zoidberg/field.py:DommaschkPotentials.Bzfunc"]}
{"id": "C153", "title": "Periods of the Dommaschk field", "statement": "The field repeats after the angle 2 pi/n if all modes with coefficients have numbers divisible by n; always after a full turn.", "quantifier": "all coefficient matrices and n", "why_tests_cant": "continuous", "anchors": ["zoidberg/field.py:DommaschkPotentials.U"]}
{"id": "C154", "title": "Cells tile the domain", "statement": "The volumes of all interior cells add up to the integral over the outermost face line minus that over the innermost: neighbouring cells share their edges exactly.", "quantifier": "all grids whose getCoordinate is periodic in z up to a shift in Z, any number of outline points", "why_tests_cant": "all shapes", "anchors": ["zoidberg/stencil_dagp_fv.py:doit"]}
{"id": "C155", "title": "DAGP on rectangular grids is the five point Laplacian", "statement": "For a RectangularPoloidalGrid the coefficients are those of the standard five point finite volume stencil, so result/volume is the usual second difference for every function.", "quantifier": "all rectangular grids with dZ > 0", "why_tests_cant": "all sizes and fields", "anchors": ["zoidberg/stencil_dagp_fv.py:doit", "zoidberg/stencil_dagp_fv.py:test"]}
{"id": "C156", "title": "doit checks the grids", "statement": "If doit returns, all grids have the same size with at least four points in x, agree on Lz, have no singular stencil, and each entry of the result belongs to its grid.", "quantifier": "all lists of grids", "why_tests_cant": "all lists", "anchors": ["zoidberg/stencil_dagp_fv.py:doit", "zoidberg/stencil_dagp_fv.py:getSame"]}
{"id": "C157", "title": "Printed seconds are below 60", "statement": "format_time prints at most 59 in the seconds, for every duration, and the printed time is within half a second of the duration.", "quantifier": "all durations >= 0", "why_tests_cant": "continuous", "anchors": ["zoidberg/progress.py:format_time"]}
{"id": "C158", "title": "Remaining time", "statement": "Progress.update estimates the remaining time by a constant rate: remaining * done = elapsed * missing; it is non-negative while 0 < prog <= 1, zero at the end, and absent exactly for prog = 0.", "quantifier": "all elapsed times and fractions", "why_tests_cant": "continuous", "anchors": ["zoidberg/progress.py:Progress.update"]}
{"id": "C159", "title": "Spectral lines are functions of the distance", "statement": "SpectralLine fits R and Z as functions of the distance along the line: coordinates that are trigonometric polynomials of it (with at most num modes) have zero residual at their coefficients.", "quantifier": "all lines and polynomials", "why_tests_cant": "continuous", "anchors": ["zoidberg/spectralline.py:SpectralLine.__init__", "zoidberg/spectralline.py:_err"]}
{"id": "C160", "title": "Spectral fit is the discrete Fourier transform", "statement": "If least_squares finds a minimum and there are more than 2 num points, the coefficients of a SpectralLine are the discrete Fourier coefficients of R and Z, and the minimum is unique.", "quantifier": "all data, all mode numbers below half the number of points", "why_tests_cant": "continuous; all sizes", "anchors": ["zoidberg/spectralline.py:SpectralLine.__init__", "zoidberg/spectralline.py:_err", "zoidberg/spectralline.py:_fft"]}
{"id": "C161", "title": "Spectral lines are closed", "statement": "Rvalue and Zvalue have period 2 pi for all coefficients.", "quantifier": "all coefficients and angles", "why_tests_cant": "continuous", "anchors": ["zoidberg/spectralline.py:SpectralLine.Rvalue", "zoidberg/spectralline.py:SpectralLine.Zvalue", "zoidberg/spectralline.py:_fft"]}
{"id": "C162", "title": "Outliers", "statement": "find_outliers returns exactly the numbers item - bounds of the points at which the cosine between the two directions is below the limit; they lie between -bounds and len - bounds - 1; it returns if and only if there are at least 2 bounds points.", "quantifier": "all lines, limits and distances", "why_tests_cant": "all inputs", "anchors": ["zoidberg/smooth.py:find_outliers"]}
{"id": "C163", "title": "Smoothing changes nothing else", "statement": "gen_newr keeps the lengths and every point that is in no run; a pass of smooth changes only points within bounds of an outlier, counted around the closed line.", "quantifier": "all lines, runs and results of the solver", "why_tests_cant": "all inputs; any solver", "anchors": ["zoidberg/smooth.py:gen_newr", "zoidberg/smooth.py:smooth"]}
{"id": "C164", "title": "Smoothed runs join the line", "statement": "A smoothed run starts in its old first point; if the first four residuals vanish then it ends in its old last point and has the directions of the neighbouring segments at both ends.", "quantifier": "all lines, runs and results of the solver", "why_tests_cant": "continuous", "anchors": ["zoidberg/smooth.py:gen_newr"]}
{"id": "C165", "title": "What the smoothing minimises", "statement": "The residual consists of the distance of the end, the deviation of the two directions, the length of the curve (mean speed over 100 samples) and the squared second derivatives at both ends.", "quantifier": "all coefficients", "why_tests_cant": "continuous", "anchors": ["zoidberg/smooth.py:gen_newr"]}
{"id": "C166", "title": "Lines without corners stay", "statement": "smooth returns the data unchanged if no cosine for any distance up to bounds_find is below the limit.", "quantifier": "all lines, solvers, plots", "why_tests_cant": "all inputs", "anchors": ["zoidberg/smooth.py:smooth"]}
{"id": "C167", "title": "smooth returns data or None", "statement": "smooth returns a pair of arrays of the old lengths, or None if it fails five times the bounds.", "quantifier": "all lines, solvers, plots", "why_tests_cant": "all histories", "anchors": ["zoidberg/smooth.py:smooth", "zoidberg/smooth.py:gen_newr"]}
{"id": "C168", "title": "Runs do not overlap", "statement": "No point of the closed line belongs to two runs of generate_points_tosmooth.", "quantifier": "all outliers that find_outliers can return", "why_tests_cant": "all inputs", "anchors": ["zoidberg/smooth.py:generate_points_tosmooth"]}
{"id": "C169", "title": "Assertions of smooth hold", "statement": "In smooth every run has more than bounds points, the points can always be split, and deb[-1] exists after a failure.", "quantifier": "all lines and solvers", "why_tests_cant": "all histories", "anchors": ["zoidberg/smooth.py:smooth", "zoidberg/smooth.py:gen_newr", "zoidberg/smooth.py:generate_points_tosmooth"]}
{"id": "C170", "title": "Plots without matplotlib", "statement": "If matplotlib is not installed every plot function issues a warning and returns None.", "quantifier": "all arguments", "why_tests_cant": "environment of the installation", "anchors": ["zoidberg/plot.py:plot_poincare", "zoidberg/plot.py:plot_3d_field_line", "zoidberg/plot.py:plot_streamlines", "zoidberg/plot.py:plot_forward_map", "zoidberg/plot.py:plot_backward_map"]}
{"id": "C171", "title": "Poincare plot", "statement": "plot_poincare shows one set of points for every slice, each with its own colour and labelled by its y, whose points are the positions of the lines at y + r*yperiod for all revolutions r.", "quantifier": "all tracers, numbers of slices, revolutions, oversampling", "why_tests_cant": "all inputs", "anchors": ["zoidberg/plot.py:plot_poincare", "zoidberg/fieldtracer.py:trace_poincare"]}
{"id": "C172", "title": "Clicks in the Poincare plot", "statement": "In the interactive plot a left click inside shows the trace from there, a right click adds it to the points shown, a middle click removes all points, a click outside changes nothing.", "quantifier": "all integrators, positions, buttons, states", "why_tests_cant": "all histories of events", "anchors": ["zoidberg/plot.py:plot_poincare"]}
{"id": "C173", "title": "3D plot", "statement": "plot_3d_field_line shows for every starting point and cycle a curve of y_res points; point j of cycle n is the position at n*yperiod + j*yperiod/y_res and is shown at the angle j*yperiod/y_res.", "quantifier": "all integrators, starting points, periods, cycles and resolutions", "why_tests_cant": "continuous; all sizes", "anchors": ["zoidberg/plot.py:plot_3d_field_line"]}
{"id": "C174", "title": "Streamlines and surfaces for the grids of zoidberg", "statement": "plot_streamlines and make_surfaces accept every Grid.", "quantifier": "all grids and fields", "why_tests_cant": "all inputs", "anchors": ["zoidberg/plot.py:plot_streamlines", "zoidberg/zoidberg.py:make_surfaces"]}
{"id": "C175", "title": "Marks of boundary points", "statement": "The points that plot_forward_map and plot_backward_map mark as inner or outer boundary points are exactly the ones which are outside of the domain there; no point gets both marks.", "quantifier": "all grids, maps, positions", "why_tests_cant": "continuous", "anchors": ["zoidberg/plot.py:plot_forward_map", "zoidberg/plot.py:plot_backward_map", "zoidberg/poloidal_grid.py:findIndex"]}
{"id": "C176", "title": "Map plots for all slices", "statement": "For every slice of the maps, plot_forward_map and plot_backward_map show all points of the next (previous) poloidal grid, all points of the map and the marked ones among them.", "quantifier": "all grids, maps and slices", "why_tests_cant": "all inputs", "anchors": ["zoidberg/plot.py:plot_forward_map", "zoidberg/plot.py:plot_backward_map", "zoidberg/grid.py:getPoloidalGrid"]}
{"id": "C177", "title": "Surfaces", "statement": "make_surfaces gives at each point of the mesh the interpolation of the numbers s/(nsurfaces-1) of the lines from the positions at which line s meets this slice, for any number of surfaces; with an exact interpolation, points on a line get its number.", "quantifier": "all integrators, interpolations, grids with the attributes, numbers of surfaces and revolutions", "why_tests_cant": "continuous", "anchors": ["zoidberg/zoidberg.py:make_surfaces"]}
{"id": "C178", "title": "Web tracer: positions", "statement": "With a service that traces exactly if the direction belongs to the sign of the angle, FieldTracerWeb.follow_field_lines returns the starting points in row 0 and in row i the positions of the lines at y_values[i].", "quantifier": "all exact services, directions of the field, starting points and lists of at least two y values", "why_tests_cant": "needs the web service; all inputs", "anchors": ["zoidberg/fieldtracer.py:FieldTracerWeb.follow_field_lines"]}
{"id": "C179", "title": "Web tracer: all values are set", "statement": "Every value that FieldTracerWeb returns comes from the answer of the service.", "quantifier": "all answers of the service", "why_tests_cant": "unspecified memory content", "anchors": ["zoidberg/fieldtracer.py:FieldTracerWeb.follow_field_lines"]}
{"id": "C180", "title": "Magnetic axis of W7X", "statement": "If W7X_vacuum.magnetic_axis returns a point, it is the position of a vertex of the traced axis whose toroidal angle is within 3% of phi_axis, and if there is such a vertex a point is returned.", "quantifier": "all angles, all traced axes", "why_tests_cant": "continuous; needs the web service", "anchors": ["zoidberg/field.py:W7X_vacuum.magnetic_axis"]}
{"id": "C181", "title": "Plasma field of W7X", "statement": "plasma_field gives the field for the wout file it is called with.", "quantifier": "all files, services, ranges", "why_tests_cant": "needs the web service", "anchors": ["zoidberg/field.py:W7X_vacuum.plasma_field"]}
{"id": "C182", "title": "W7X field at the points of its grid", "statement": "At every point of its grid, and after any number of turns, the field of W7X_vacuum is the sum of the vacuum and the plasma field (if included); outside of the grid it is purely toroidal with strength 1.", "quantifier": "all grids, all values, all exact interpolations, all turns", "why_tests_cant": "continuous", "anchors": ["zoidberg/field.py:W7X_vacuum.__init__", "zoidberg/field.py:W7X_vacuum.Bxfunc"]}
{"id": "C183", "title": "W7X_VMEC can be constructed", "statement": "A W7X_VMEC object can be constructed.", "quantifier": "all arguments", "why_tests_cant": "needs the web service", "anchors": ["zoidberg/field.py:W7X_VMEC.__init__"]}
{"id": "C184", "title": "Smoothed field", "statement": "SmoothedMagneticField gives the components of the field, damped in x, from the interval of the grid that holds phi; By and R are unchanged.", "quantifier": "all grids, fields, positions", "why_tests_cant": "continuous", "anchors": ["zoidberg/field.py:SmoothedMagneticField"]}
{"id": "C185", "title": "VMEC field", "statement": "At the points of its grid the VMEC field is that of the file after any number of turns, with the default number of angles; for a file without toroidal modes it does not depend on the angle.", "quantifier": "all files, exact interpolations, points, turns", "why_tests_cant": "continuous", "anchors": ["zoidberg/field.py:VMEC.__init__", "zoidberg/field.py:VMEC.read_vmec_file"]}
{"id": "C186", "title": "Pressure of GEQDSK", "statement": "The pressure is always a value of the profile between axis and edge; at the points of the grid it is p(1) outside of the core and p of the normalised flux inside.", "quantifier": "all profiles, fluxes, positions", "why_tests_cant": "continuous", "anchors": ["zoidberg/field.py:GEQDSK.pressure", "zoidberg/field.py:GEQDSK.__init__"]}
{"id": "C187", "title": "VTK output of a grid file", "statement": "fci_to_vtk writes the field from bx and bz, or from the maps if they are missing, at the positions of the cells (spacings dx, dy).", "quantifier": "all files", "why_tests_cant": "all inputs", "anchors": ["zoidberg/zoidberg.py:fci_to_vtk"]}
{"id": "C188", "title": "VTK output of a field", "statement": "write_Bfield_to_vtk writes every zoidberg field.", "quantifier": "all fields and grids", "why_tests_cant": "all inputs", "anchors": ["zoidberg/zoidberg.py:write_Bfield_to_vtk"]}
{"id": "C189", "title": "The base class is a uniform field", "statement": "A MagneticField has straight lines along y (direction 0 at every list of points), strength 1 and major radius 1.", "quantifier": "all positions", "why_tests_cant": "continuous", "anchors": ["zoidberg/field.py:MagneticField"]}
{"id": "C190", "title": "Iterations of the elliptic solver", "statement": "grid_elliptic returns the grid after the first pass in which no point moves by sqrt(tol) or more, if that is one of the first max(10 max(nx,nz), 300) passes, and raises a RuntimeError otherwise.", "quantifier": "all grids, sizes, tolerances, spacings", "why_tests_cant": "all numbers of passes", "anchors": ["zoidberg/poloidal_grid.py:grid_elliptic"]}
{"id": "C191", "title": "Cost of a spectral line", "statement": "The cost of a SpectralLine is half the sum of the squared residuals of both coordinates; if it is zero both coordinates are met at all points.", "quantifier": "all lines, numbers of modes and minimisers that return the cost of what they return", "why_tests_cant": "continuous", "anchors": ["zoidberg/spectralline.py:SpectralLine.__init__"]}
{"id": "C192", "title": "Curvature uses the field at the grid points", "statement": "calc_curvilinear_curvature writes a curvature that depends on the magnetic field only through its values at the points of the grid: two fields that agree at every grid point give the same file.", "quantifier": "all fields, grids, derivative rules and files", "why_tests_cant": "all fields", "anchors": ["zoidberg/examples/common.py:calc_curvilinear_curvature"]}
{"id": "C193", "title": "Curvature components", "statement": "The contravariant components in x and z that calc_curvilinear_curvature computes are those of the vector with the R and Z components that were found, and only the keys bxcvx, bxcvy, bxcvz and J of the file change.", "quantifier": "all fields, grids with a non-zero Jacobian, derivative rules and files", "why_tests_cant": "continuous", "anchors": ["zoidberg/examples/common.py:calc_curvilinear_curvature"]}
{"id": "C194", "title": "Covariant angular component", "statement": "The covariant component of the curvature along the angle is R times the physical component, as it is for every vector in cylindrical coordinates.", "quantifier": "all fields and grids", "why_tests_cant": "continuous", "anchors": ["zoidberg/examples/common.py:calc_curvilinear_curvature"]}
{"id": "C195", "title": "The curvature is a curl", "statement": "The discrete divergence of the curvature that calc_curvilinear_curvature computes vanishes (with the same derivative rule).", "quantifier": "all fields, linear derivative rules, spacings that are a product", "why_tests_cant": "all rules and fields", "anchors": ["zoidberg/examples/common.py:calc_curvilinear_curvature"]}
{"id": "C196", "title": "Curvature is invariant under a turn of z", "statement": "Turning a closed poloidal grid by a number of points in z turns the Jacobian that calc_curvilinear_curvature finds by the same number of points.", "quantifier": "all closed grids, turns, derivative rules that are linear and exact for straight lines", "why_tests_cant": "all grids", "anchors": ["zoidberg/examples/common.py:calc_curvilinear_curvature"]}
{"id": "C197", "title": "smooth_metric runs and smooths what it says", "statement": "smooth_metric writes smoothed versions of the metric components to the file (and of the curvature, if write is asked for).", "quantifier": "all files and options", "why_tests_cant": "all files", "anchors": ["zoidberg/examples/common.py:smooth_metric"]}
{"id": "C198", "title": "Smoothed metrics are inverse to each other", "statement": "After smooth_metric the covariant and contravariant metric components written are still inverse to each other.", "quantifier": "all metrics, filters", "why_tests_cant": "continuous", "anchors": ["zoidberg/examples/common.py:smooth_metric"]}
{"id": "C199", "title": "Lines from get_lines", "statement": "The lines get_lines returns are, for every starting point, the points of the field line at the slices asked for, in the order they were asked for.", "quantifier": "all fields, starting points, slices", "why_tests_cant": "all lists", "anchors": ["zoidberg/examples/common.py:get_lines"]}
{"id": "C200", "title": "rotating_ellipse makes a grid", "statement": "rotating_ellipse makes a grid for every choice of its options.", "quantifier": "all options", "why_tests_cant": "all combinations", "anchors": ["zoidberg/examples/rotating_ellipse.py:rotating_ellipse"]}
{"id": "C201", "title": "Alignment options of rotating_ellipse", "statement": "Each of inner and outer boundary is aligned with the field if and only if the option for that boundary is set.", "quantifier": "all options", "why_tests_cant": "all combinations", "anchors": ["zoidberg/examples/rotating_ellipse.py:rotating_ellipse"]}
{"id": "C202", "title": "return_iota", "statement": "With return_iota=True rotating_ellipse gives its caller the rotational transform.", "quantifier": "all options, fields", "why_tests_cant": "all options", "anchors": ["zoidberg/examples/rotating_ellipse.py:rotating_ellipse"]}
{"id": "C203", "title": "What calc_iota can return", "statement": "Whatever the field line does, calc_iota returns 50/m for a whole number m from 11 to 9997, or raises: an IndexError exactly if there are fewer than two maxima.", "quantifier": "all fields and lines", "why_tests_cant": "all lines", "anchors": ["zoidberg/examples/common.py:calc_iota"]}
{"id": "C204", "title": "calc_iota finds the rotational transform", "statement": "For a line that winds evenly around a circular surface with transform iota, 1/calc_iota differs from 1/iota by at most 1/50, the spacing of the points.", "quantifier": "all surfaces (R0, a > 0), all iota from 1/50 up", "why_tests_cant": "continuous; ties are of measure zero", "anchors": ["zoidberg/examples/common.py:calc_iota"]}
{"id": "C205", "title": "Maps fit the operators", "statement": "Whatever make_maps returns can be passed to calculate_parallel_map_operators as it is: every array that is read is there, the shapes agree, the sub-cell weights are accepted, and the operators are computed.", "quantifier": "all grids, tracers, fields, quadrature rules with positive weights that sum to 2, nslice >= 1, samples_per_dim >= 1, refine, chunks, MXG that leaves an evolving region", "why_tests_cant": "all pipelines; the two modules are tested apart", "anchors": ["zoidberg/zoidberg.py:make_maps", "zoidberg/weights.py:calculate_parallel_map_operators", "zoidberg/weights.py:_get_subcell_weights"]}
{"id": "C206", "title": "Operators do not depend on nslice", "statement": "The parallel operators couple adjacent planes only, so the operators computed from the maps of make_maps do not depend on the number of parallel slices nslice that make_maps was asked for.", "quantifier": "all grids, tracers, nslice >= 1, samples_per_dim >= 1", "why_tests_cant": "all nslice; tests use one slice", "anchors": ["zoidberg/zoidberg.py:make_maps", "zoidberg/weights.py:calculate_parallel_map_operators"]}
{"id": "C207", "title": "Operators evaluate at the end of the field line", "statement": "With one slice and one sample per cell, the row of a cell in the parallel operator, applied to a function on the cells, gives the interpolated value of the function where the field line through the grid point meets the adjacent plane, if that point is inside the evolving region.", "quantifier": "all grids, field lines, cells, functions", "why_tests_cant": "continuous positions; pipeline of tracer, map and operator", "anchors": ["zoidberg/zoidberg.py:make_maps", "zoidberg/weights.py:build_leg_destination_operator", "zoidberg/weights.py:calculate_parallel_map_operators"]}
{"id": "C208", "title": "The slab", "statement": "For a Slab on a rectangular periodic grid, with exact field lines, the parallel operators shift every x surface in z by slope(x) * dy / dz cells: by interpolation along z with the period of the grid, and exactly by a permutation if this is a whole number.", "quantifier": "all slabs, rectangular grids, planes, cells and functions", "why_tests_cant": "continuous parameters", "anchors": ["zoidberg/field.py:Slab", "zoidberg/poloidal_grid.py:RectangularPoloidalGrid.findIndex", "zoidberg/zoidberg.py:make_maps", "zoidberg/weights.py:calculate_parallel_map_operators"]}
{"id": "C209", "title": "Maps can be given operators", "statement": "Whatever make_maps returns can be passed to modify_maps as it is, with and without partial boundaries: it succeeds, adds the exported operator arrays, removes the sub-sample maps and keeps all other entries.", "quantifier": "all grids, tracers, fields, quadrature rules with positive weights that sum to 2, nslice >= 1, samples_per_dim >= 1, MXG that leaves an evolving region", "why_tests_cant": "all pipelines; the two modules are tested apart", "anchors": ["zoidberg/zoidberg.py:make_maps", "zoidberg/weights.py:modify_maps"]}
{"id": "C210", "title": "Boundary legs agree with the maps of make_maps", "statement": "After make_maps and modify_maps a cell has a boundary leg in a direction exactly if its centre map leads out of the evolving region.", "quantifier": "all grids, tracers, nslice = 1, samples_per_dim >= 1, with and without partial boundaries", "why_tests_cant": "continuous positions; pipeline", "anchors": ["zoidberg/zoidberg.py:make_maps", "zoidberg/weights.py:modify_maps", "zoidberg/weights.py:calculate_parallel_map_operators"]}
{"id": "C211", "title": "Partial boundaries keep inner maps", "statement": "With partial boundaries, modify_maps sets the adjacent centre maps of make_maps to -1 exactly where the cell loses a field line to the boundary, and keeps them where all field lines of the cell stay inside, whatever nslice is.", "quantifier": "all grids, tracers, nslice >= 1, samples_per_dim >= 1", "why_tests_cant": "all nslice; pipeline", "anchors": ["zoidberg/zoidberg.py:make_maps", "zoidberg/weights.py:modify_maps"]}
{"id": "C212", "title": "No slices, no operators", "statement": "make_maps with nslice = 0 gives maps that both calculate_parallel_map_operators and modify_maps reject with KeyError for forward_xt_primes, before anything else is computed.", "quantifier": "all grids, tracers, settings", "why_tests_cant": "all settings", "anchors": ["zoidberg/zoidberg.py:make_maps", "zoidberg/weights.py:calculate_parallel_map_operators", "zoidberg/weights.py:modify_maps"]}
{"id": "C213", "title": "Sfunc is an approximate surface function", "statement": "Along a field line of DommaschkPotentials the rate of change of Sfunc vanishes to first order in the coefficients A: with A replaced by t*A, Bx dS/dx + By/x dS/dphi + Bz dS/dz is O(t^2) at every point with R > 0.", "quantifier": "all coefficient arrays, R_0, B_0, points with R > 0", "why_tests_cant": "statement about limits for all coefficients and points", "anchors": ["zoidberg/field.py:DommaschkPotentials.Sfunc", "zoidberg/field.py:DommaschkPotentials.U_hat", "zoidberg/field.py:DommaschkPotentials.V_hat"]}
{"id": "C214", "title": "Interrupts end the retry loops", "statement": "If the user interrupts a call of the field line service (control-C), the interrupt is passed on at once and the call is not repeated, as the comment in _calc_chunk says.", "quantifier": "all histories of attempts", "why_tests_cant": "depends on the time of the interrupt", "anchors": ["zoidberg/field.py:W7X_vacuum._calc_chunk", "zoidberg/fieldtracer.py:FieldTracerWeb.follow_field_lines"]}
{"id": "C215", "title": "Progress as a context manager", "statement": "with Progress() passes on what the body returns or raises, and reports 100 % at the end exactly if the body ended normally.", "quantifier": "all bodies, all times", "why_tests_cant": "all bodies", "anchors": ["zoidberg/progress.py:Progress.__enter__", "zoidberg/progress.py:Progress.__exit__"]}
{"id": "C216", "title": "Direction of the web tracer", "statement": "FieldTracerWeb accepts exactly one of config and configId, and follows field lines from y_values[0] towards y_values[1] whichever way the magnetic field points.", "quantifier": "all configurations, services, points, y values", "why_tests_cant": "needs a remote service; both field directions", "anchors": ["zoidberg/fieldtracer.py:FieldTracerWeb.__init__", "zoidberg/fieldtracer.py:FieldTracerWeb.getConfig", "zoidberg/fieldtracer.py:FieldTracerWeb._follow_field_lines"]}
{"id": "C217", "title": "The web tracer leaves the configuration alone", "statement": "The configuration object given to FieldTracerWeb is the same after construction and tracing as before, and its inverseField does not influence results.", "quantifier": "all configurations and calls", "why_tests_cant": "aliasing of arguments; remote service", "anchors": ["zoidberg/fieldtracer.py:FieldTracerWeb.__init__", "zoidberg/fieldtracer.py:FieldTracerWeb.getConfig", "zoidberg/fieldtracer.py:FieldTracerWeb._follow_field_lines"]}
{"id": "C218", "title": "DAGP files can be read back", "statement": "load applied to a file with what write returns gives the volume and both coefficient arrays back, for every grid size; the arrays written have the number of rows of R.", "quantifier": "all sizes with at least two rows, all contents", "why_tests_cant": "all sizes", "anchors": ["zoidberg/stencil_dagp_fv.py:write", "zoidberg/stencil_dagp_fv.py:load"]}
{"id": "C219", "title": "Command line of stencil_dagp_fv", "statement": "Each -v increases and each -q decreases the verbosity by one, -p asks for plots, and the files tested are the other arguments in their order.", "quantifier": "all argument lists", "why_tests_cant": "all argument lists", "anchors": ["zoidberg/stencil_dagp_fv.py:__main__"]}
{"id": "C220", "title": "Grid of the screwpinch example", "statement": "The inner and outer boundary of the grid of examples.screwpinch are flux surfaces of its field, field lines stay at their poloidal position, and the planes are equally spaced over the period.", "quantifier": "all xcentre, a, npoints >= 3, ny", "why_tests_cant": "continuous field lines", "anchors": ["zoidberg/examples/screwpinch.py:screwpinch", "zoidberg/rzline.py:shaped_line", "zoidberg/field.py:Screwpinch"]}
{"id": "C221", "title": "Planes of the example grids", "statement": "In the periodic grids of the examples every plane is followed by a plane at larger y, so that field lines between planes have positive length and the spacings add up to the period.", "quantifier": "all example grids: all periods and numbers of slices", "why_tests_cant": "periodic wrap for all sizes", "anchors": ["examples/straight-stellarator-curvilinear.py", "examples/rotating-ellipse.py", "zoidberg/examples/screwpinch.py:screwpinch", "zoidberg/examples/rotating_ellipse.py:rotating_ellipse"]}
{"id": "C222", "title": "J times dy approaches the flux tube volume", "statement": "J*dy of a cell, with the parallel integral refined r times, converges with second order in 1/r to area times field times the integral of R/B along the field line from halfway to the previous plane to halfway to the next.", "quantifier": "all smooth fields and lines, all grids with planes on both sides, all r", "why_tests_cant": "limit in r for all smooth lines", "anchors": ["zoidberg/zoidberg.py:make_maps"]}
{"id": "C223", "title": "field line lengths approach the arc length", "statement": "The length of a field line as computed by field_line_length (which make_maps uses for Ly) is at most the arc length of the interpolated line and approaches it with first order in the number of segments.", "quantifier": "all lines, all interpolants that are twice continuously differentiable, all refinements", "why_tests_cant": "limit; all smooth curves", "anchors": ["zoidberg/diff.py:field_line_length", "zoidberg/zoidberg.py:make_maps"]}
{"id": "C224", "title": "Command line of rotating_ellipse", "statement": "A flag of the command line of the rotating_ellipse example sets the option of its name to True; options without flag have the default of the function.", "quantifier": "all sets of flags", "why_tests_cant": "all combinations of flags", "anchors": ["zoidberg/examples/rotating_ellipse.py:main"]}
{"id": "C225", "title": "c4 is of fourth order everywhere", "statement": "For a function with five continuous derivatives, c4 of its samples divided by the spacing h differs from the derivative by at most a constant times h^4 at every point, ends included; the periodic version as well, for samples over one period.", "quantifier": "all smooth functions, n >= 5, all spacings", "why_tests_cant": "all functions; test_diff uses sin and cos with 64 and 128 points", "anchors": ["zoidberg/diff.py:c4"]}
{"id": "C226", "title": "c2 is of second order everywhere", "statement": "For a function with three continuous derivatives on a fixed interval, c2 of its samples divided by the spacing h differs from the derivative by at most a constant times h^2 at every point, as test_diff_c2_np asserts.", "quantifier": "all smooth functions, all n >= 3", "why_tests_cant": "the test uses sin at 0, where the second derivative vanishes", "anchors": ["zoidberg/diff.py:c2"]}
{"id": "C227", "title": "c2 and c4 do not depend on the type of the samples", "statement": "c2 and c4 of an array of integers are those of the same numbers as floating point numbers.", "quantifier": "all integer arrays, periodic or not", "why_tests_cant": "all arrays", "anchors": ["zoidberg/diff.py:c2", "zoidberg/diff.py:c4"]}
{"id": "C228", "title": "line_from_points finds a line again from its points", "statement": "line_from_points, applied to the control points of a shaped_line in any order, returns the same closed line, beginning at some point, as test_line_from_points asserts for one line and one permutation.", "quantifier": "all shaped lines with n >= 3, all permutations, all spline orders", "why_tests_cant": "all permutations and shapes", "anchors": ["zoidberg/rzline.py:line_from_points", "zoidberg/rzline.py:shaped_line", "zoidberg/rzline.py:circle"]}
{"id": "C229", "title": "two_opt leaves no pair of edges to exchange", "statement": "For opt=0, the line that line_from_points_two_opt returns cannot be made shorter by taking out two of its edges and reversing the points between: it is 2-optimal.", "quantifier": "all sets of points, spline orders", "why_tests_cant": "all sets of points; the tests use one line", "anchors": ["zoidberg/rzline.py:line_from_points_two_opt"]}
{"id": "C230", "title": "line_from_points_fast finds a line again from its points", "statement": "line_from_points_fast, applied to the control points of a line in any order, returns the same closed line, beginning at some point.", "quantifier": "all lines with n >= 3, all permutations", "why_tests_cant": "all permutations and shapes", "anchors": ["zoidberg/rzline.py:line_from_points_fast", "zoidberg/rzline.py:shaped_line"]}
{"id": "C231", "title": "Lines from points do not cross themselves", "statement": "The closed line line_from_points returns does not cross itself: no two of its edges that have no end in common intersect in their interiors.", "quantifier": "all sets of points in general position, all opt in [0, 1)", "why_tests_cant": "all sets of points", "anchors": ["zoidberg/rzline.py:line_from_points"]}
{"id": "C232", "title": "The parallel operators are of third order", "statement": "For a function with three continuous derivatives in x and z, periodic in z, every interior row of the parallel operators, applied to its values on the grid, differs from the average of the function over the ends of the field lines by at most a constant times the cubes of the grid spacings (and the weights that are skipped).", "quantifier": "all maps, all rows, all smooth functions", "why_tests_cant": "all functions; convergence can only be measured for some", "anchors": ["zoidberg/weights.py:calculate_parallel_map_operators"]}
{"id": "C233", "title": "findIndex inverts getCoordinate", "statement": "For every index (x, z) with 0 <= x <= nx - 1 of a StructuredPoloidalGrid with smooth, non-degenerate coordinate lines, findIndex applied to the coordinates getCoordinate(x, z) returns (x, z), up to the tolerance, without failing.", "quantifier": "all grids, all indices, all nearest grid points", "why_tests_cant": "all grids and indices; convergence of the Newton iteration is a statement about all curved grids, the test uses one grid of concentric circles", "anchors": ["zoidberg/poloidal_grid.py:StructuredPoloidalGrid.findIndex", "zoidberg/poloidal_grid.py:StructuredPoloidalGrid.getCoordinate"]}
{"id": "C234", "title": "Cell volumes of a ring add up", "statement": "For a purely toroidal field that does not depend on the angle, on rectangular poloidal grids, the sum of J*dx*dy*dz over all cells of a periodic grid is the volume of the ring the cells fill.", "quantifier": "all grid sizes, radii, field profiles, sets of increasing planes, refinements and other options", "why_tests_cant": "all planes and refinements; tests compare single cells with numerical integrals", "anchors": ["zoidberg/zoidberg.py:make_maps", "zoidberg/grid.py:Grid.metric", "zoidberg/poloidal_grid.py:RectangularPoloidalGrid.metric"]}
{"id": "C235", "title": "Alignment of the lines in grid_elliptic", "statement": "With align=True grid_elliptic only renumbers the points of the two lines: the line with less points starts at the outboard point, the other one starts so that the corresponding points are as close as possible, and the boundary rows of the grid are on the lines that were given.", "quantifier": "all pairs of lines, however they were made, all sizes and options", "why_tests_cant": "all lines and all their cyclic numberings; spline orders are never varied in the tests", "anchors": ["zoidberg/poloidal_grid.py:grid_elliptic", "zoidberg/rzline.py:RZline.__init__"]}
{"id": "C236", "title": "Elliptic grids follow a movement of the lines", "statement": "If both lines are shifted, turned, mirrored or scaled, grid_elliptic (with tol, which is a squared length, scaled accordingly) and grid_annulus give the shifted, turned, mirrored or scaled grid.", "quantifier": "all similarities, lines, sizes, numbers of sweeps, levels of coarse grids and options", "why_tests_cant": "metamorphic relation over all inputs and iterations", "anchors": ["zoidberg/poloidal_grid.py:grid_elliptic", "zoidberg/poloidal_grid.py:grid_annulus", "zoidberg/rzline.py:RZline.closestPoint"]}
{"id": "C237", "title": "Maps repeat with the periods of the machine", "statement": "On a periodic grid whose planes repeat after p planes, with a field that repeats over the same distance, make_maps gives in plane j+p the maps, weights, lengths, J and By of plane j; in an axisymmetric machine all planes are the same.", "quantifier": "all numbers of planes, slices, subdivisions and samples, all grids and fields with the symmetry, with and without wrapping round the end of the domain", "why_tests_cant": "metamorphic relation between planes for all machines; the wrap-round planes enter through the index arithmetic", "anchors": ["zoidberg/zoidberg.py:make_maps", "zoidberg/grid.py:Grid.getPoloidalGrid"]}
{"id": "C238", "title": "The plane where the numbering starts", "statement": "If a periodic grid is numbered from another of its planes, make_maps gives the same maps with the planes renumbered.", "quantifier": "all starting planes, grids and fields that are periodic with the length of the domain", "why_tests_cant": "all cyclic renumberings of all grids", "anchors": ["zoidberg/zoidberg.py:make_maps", "zoidberg/grid.py:Grid.getPoloidalGrid"]}
{"id": "C239", "title": "Maps in the mirror", "statement": "For the mirrored grid (planes in the opposite order at s-y) and the mirrored field, the forward maps are the backward maps of the original in the opposite plane and the other way round, the quantities at the upper and lower faces change places, and J and the lengths of the field lines are unchanged.", "quantifier": "all periodic and non-periodic grids, numbers of slices, subdivisions and samples, all fields", "why_tests_cant": "forward and backward branches are coded separately; the relation between them needs all inputs", "anchors": ["zoidberg/zoidberg.py:make_maps", "zoidberg/diff.py:field_line_length"]}
{"id": "C240", "title": "The direction of the field does not depend on its strength", "statement": "field_direction gives the same for B and for gB, whatever the nonzero factor g, which may depend on the position.", "quantifier": "all fields, factors and positions", "why_tests_cant": "all fields and all factors", "anchors": ["zoidberg/field.py:MagneticField.field_direction"]}
{"id": "C241", "title": "Profiles inside and outside the plasma of a GEQDSK file", "statement": "For a GEQDSK equilibrium, at every grid point inside the plasma boundary R B_phi and the pressure are those that the file gives for the normalised flux there, and at every grid point outside they are those of the edge.", "quantifier": "all files with consistent sizes and a strictly convex plasma boundary, all grid points not on it, all interpolations that reproduce their data", "why_tests_cant": "which points count as inside depends on the geometry of every boundary polygon relative to every grid point", "anchors": ["zoidberg/field.py:GEQDSK.__init__", "zoidberg/boundary.py:PolygonBoundaryXZ.outside"]}
{"id": "C242", "title": "GEQDSK files can be read", "statement": "Every GEQDSK file whose arrays have the sizes its header gives can be read, whether or not it lists points of the plasma boundary or of the limiter; field lines then end at the limiter, if there is one.", "quantifier": "all files with consistent sizes", "why_tests_cant": "the branches for missing parts of a file are rarely exercised; the claim is over all files", "anchors": ["zoidberg/field.py:GEQDSK.__init__", "zoidberg/boundary.py:PolygonBoundaryXZ.__init__"]}
{"id": "C243", "title": "FieldTracerReversible returns to where it came from, in all smooth fields", "statement": "For every magnetic field whose direction is Lipschitz continuous in the position, with sub-steps that are short compared with the Lipschitz constant, FieldTracerReversible.follow_field_lines ends, and tracing back from the end gives the positions of the way there in reverse order, up to a small multiple of the tolerance of the Newton iteration.", "quantifier": "all Lipschitz fields (not only affine ones), all tolerances and finite difference spacings, numbers of sub-steps, lists of y and of starting points", "why_tests_cant": "termination of a while loop and an error bound over all nonlinear fields", "anchors": ["zoidberg/fieldtracer.py:FieldTracerReversible.follow_field_lines"]}
{"id": "C244", "title": "FieldTracerReversible is of second order", "statement": "The positions that FieldTracerReversible.follow_field_lines returns differ from those of the field lines by at most a constant times (length of a sub-step)^2, plus a constant times the tolerance of the Newton iteration.", "quantifier": "all fields with Lipschitz direction whose lines have three bounded derivatives, all numbers of sub-steps, lists of y and starting points", "why_tests_cant": "a rate of convergence over all fields", "anchors": ["zoidberg/fieldtracer.py:FieldTracerReversible.follow_field_lines"]}
{"id": "C245", "title": "Surfaces of the straight stellarator", "statement": "Every field line of StraightStellarator that does not meet a coil lies on one surface: Afunc(x, z, phi) - (pi/yperiod)*((x-xcentre)^2 + (z-zcentre)^2) has one value along it.", "quantifier": "all parameters, all field lines (solutions of field_direction), all intervals of y", "why_tests_cant": "a conserved quantity of the solutions of a differential equation; a tracer only approximates them", "anchors": ["zoidberg/field.py:StraightStellarator.__init__", "zoidberg/field.py:StraightStellarator.coil"]}
{"id": "C246", "title": "The straight stellarator confines field lines near its axis", "statement": "If 8*|I_coil|*|yperiod| <= 5*pi*radius^2 (0.05, pi and 0.8 by default), a field line of StraightStellarator that is somewhere within radius/sqrt(6) of the centre never gets farther from it than sqrt(3) times that distance, however long it is followed in either direction, and never meets a coil.", "quantifier": "all such parameters, all field lines, all lengths", "why_tests_cant": "infinite lengths and all starting points", "anchors": ["zoidberg/field.py:StraightStellarator.__init__", "zoidberg/field.py:StraightStellarator.coil"]}
{"id": "C247", "title": "Symmetries of the coil fields", "statement": "The mirror image (z to 2*zcentre - z, phi to -phi) of a field line of StraightStellarator or RotatingEllipse is a field line; a field line of StraightStellarator that is moved by s in phi and turned by 2*pi*s/yperiod about the centre is a field line.", "quantifier": "all parameters, field lines and s", "why_tests_cant": "all lines of a differential equation", "anchors": ["zoidberg/field.py:StraightStellarator.__init__", "zoidberg/field.py:StraightStellarator.coil", "zoidberg/field.py:RotatingEllipse.__init__", "zoidberg/field.py:RotatingEllipse.coil"]}
{"id": "C248", "title": "The boundary is asked at the y of each slice", "statement": "In the result of make_maps, an end of a field line in slice d is given index -1 because of the boundary exactly if boundary.outside holds at the end in the poloidal plane of this slice, i.e. with the y of plane j + d.", "quantifier": "all grids, tracers, boundaries (also depending on y), numbers of slices and planes", "why_tests_cant": "quantifies over boundaries that depend on y and numbers of slices; the existing boundaries do not depend on y", "anchors": ["zoidberg/zoidberg.py:make_maps"]}
{"id": "C249", "title": "Indices that are whole up to rounding", "statement": "getPoloidalGrid(j + eps) is getPoloidalGrid(j) for integers j and |eps| <= 1e-6, the tolerance of the code.", "quantifier": "all periodic grids with Ly not 0, all integers j, all eps of this size", "why_tests_cant": "all integers and all rounding errors", "anchors": ["zoidberg/grid.py:Grid.getPoloidalGrid"]}
{"id": "C250", "title": "Sums over z in a slab", "statement": "For a Slab on a rectangular periodic grid, with exact field lines, the parallel operators conserve the sum over z of the values of every inner x surface and plane.", "quantifier": "all slabs, rectangular grids, planes and functions", "why_tests_cant": "continuous shifts and arbitrary functions", "anchors": ["zoidberg/field.py:Slab", "zoidberg/poloidal_grid.py:RectangularPoloidalGrid.findIndex", "zoidberg/zoidberg.py:make_maps", "zoidberg/weights.py:calculate_parallel_map_operators"]}
{"id": "C251", "title": "The backward operator undoes the forward operator", "statement": "On a periodic grid with exact field lines: if the field line from a grid point meets a grid point of the adjacent plane, then the row of the one direction gives the value at that grid point, the row of the other direction at that grid point gives the value at the first one, and so one operator undoes the other there.", "quantifier": "all reversible periodic fields, periodic grids, planes, cells, directions and functions", "why_tests_cant": "quantifies over fields, grids and functions", "anchors": ["zoidberg/zoidberg.py:make_maps", "zoidberg/weights.py:calculate_parallel_map_operators", "zoidberg/grid.py:Grid.getPoloidalGrid"]}
{"id": "C252", "title": "Exceptions in make_maps", "statement": "make_maps does not lose exceptions: if it returns, the tracer, findIndex, field_line_length, Byfunc and metric have returned in every call and all planes have the same size, and the maps are made from what they returned. If everything works it returns.", "quantifier": "all grids, tracers, fields and arguments", "why_tests_cant": "quantifies over functions that may raise exceptions for some arguments", "anchors": ["zoidberg/zoidberg.py:make_maps", "zoidberg/diff.py:field_line_length", "zoidberg/grid.py:Grid.getPoloidalGrid"]}
{"id": "C253", "title": "make_maps works for increasing y coordinates", "statement": "If the tracer, findIndex, metric and Byfunc work, make_maps returns for every grid whose y coordinates increase.", "quantifier": "all grids with increasing y coordinates, periodic or not", "why_tests_cant": "quantifies over all grids", "anchors": ["zoidberg/zoidberg.py:make_maps", "zoidberg/diff.py:field_line_length", "zoidberg/grid.py:Grid.getPoloidalGrid"]}
{"id": "C254", "title": "closestPoint on straight parts of a line", "statement": "Where a line is straight and its points equally spaced, closestPoint (with its defaults) returns the angle of the closest point of the polygon, up to a thousandth of the distance of the points; so do the first angles of grid_elliptic with inner_ort.", "quantifier": "all lines, all points beside straight parts of them", "why_tests_cant": "quantifies over all lines and a continuum of points; the error is smaller than the spacing of the points", "anchors": ["zoidberg/rzline.py:RZline.closestPoint", "zoidberg/rzline.py:RZline.positionPolygon", "zoidberg/poloidal_grid.py:grid_elliptic"]}
{"id": "C255", "title": "Repeated parallel operators follow field lines", "statement": "Where a field line meets a grid point in every plane, applying the parallel operator of one direction n times to a function gives, at the first point, the value of the function at the n-th point of the line. If the line closes after n planes, the value comes back for any function; a function that the operator leaves unchanged is constant along the line.", "quantifier": "all grids, field lines that meet grid points, numbers of applications, functions on the cells", "why_tests_cant": "quantifies over all numbers of applications, all functions and all grids; needs the composition of make_maps and weights.py", "anchors": ["zoidberg/zoidberg.py:make_maps", "zoidberg/weights.py:calculate_parallel_map_operators"]}
{"id": "C256", "title": "Indices of the maps and positions of the maps agree", "statement": "If make_maps returns, then for every slice and grid point the coordinates of the plane the slice leads to, at the index in xt_prime and zt_prime, are those in R and Z of the slice up to the tolerance of findIndex, unless xt_prime is -1 or nx.", "quantifier": "all grids of rectangular or structured poloidal grids, all tracers, fields, boundaries and numbers of slices", "why_tests_cant": "quantifies over all grids and tracers, including those for which the iteration of findIndex fails for some points", "anchors": ["zoidberg/zoidberg.py:make_maps", "zoidberg/poloidal_grid.py:StructuredPoloidalGrid.findIndex", "zoidberg/poloidal_grid.py:StructuredPoloidalGrid.getCoordinate", "zoidberg/poloidal_grid.py:RectangularPoloidalGrid.findIndex"]}
{"id": "C257", "title": "Parallel derivatives converge", "statement": "On rectangular grids with equidistant planes and an exact tracer, half the difference of the forward and the backward operator of weights.py (made from the maps of make_maps), applied to the values of a smooth function on the cells and divided by the distance of the planes, differs from the derivative of the function along the field line by at most a constant times the square of that distance and the cubes of the spacings of the grid divided by it (and the weights that are skipped).", "quantifier": "all grids, field lines, smooth functions, cells whose two field line ends stay in the evolving region", "why_tests_cant": "all functions and field lines; convergence can only be measured for some", "anchors": ["zoidberg/zoidberg.py:make_maps", "zoidberg/weights.py:calculate_parallel_map_operators", "zoidberg/poloidal_grid.py:RectangularPoloidalGrid.findIndex"]}
{"id": "C258", "title": "Parallel operators do not amplify", "statement": "Every interior row of the parallel operators, applied to any values on the cells, gives a value that is no larger in size than the largest of them (up to the weights that are skipped), so that applying the operators is stable, and positive values stay positive.", "quantifier": "all maps, all rows, all values", "why_tests_cant": "all values; the largest amplification needs values made for the row", "anchors": ["zoidberg/weights.py:calculate_parallel_map_operators", "zoidberg/weights.py:catmull_rom_weights"]}
{"id": "C259", "title": "Parallel derivatives with a tracer of finite accuracy", "statement": "For maps made with a tracer whose end points are within eps of the exact field lines, a row of the parallel operators applied to the values of a smooth function gives its value at the end of the exact field line up to the error of the interpolation and a multiple of eps, and half the difference of forward and backward over the distance is the derivative along the exact field line up to the corresponding errors.", "quantifier": "all grids, tracers of accuracy eps, smooth functions, cells whose field lines stay inside", "why_tests_cant": "real numbers and all functions; error terms cannot be told apart from rounding in samples", "anchors": ["zoidberg/zoidberg.py:make_maps", "zoidberg/weights.py:calculate_parallel_map_operators", "zoidberg/fieldtracer.py:FieldTracerReversible.follow_field_lines"]}
{"id": "C260", "title": "make_maps traces from the grid points and leaves the grid unchanged", "statement": "For every tracer of the library and grids whose planes are separate or share one poloidal grid, the R and Z of the poloidal grids are unchanged after make_maps, and every position in the maps, forward and backward, is that of the field line through the grid point of its plane.", "quantifier": "all grids, tracers, options; planes that share poloidal grids or not", "why_tests_cant": "needs the combination of aliasing between grid and tracer with the order of the loops; tests use FieldTracer", "anchors": ["zoidberg/zoidberg.py:make_maps", "zoidberg/fieldtracer.py:FieldTracerReversible.follow_field_lines", "zoidberg/grid.py:Grid.__init__"]}
{"id": "C261", "title": "EMC3 tracer searches all zones", "statement": "Whatever the hints for the cell and the zone, rz_to_ab gives the coordinates of the point in a cell that contains it if any cell of any zone does, independently of the hints if only one does, and raises 'We left the domain' exactly if no cell contains it and all nodes are at least 1 away.", "quantifier": "all meshes, zones, points, hints", "why_tests_cant": "all meshes and hints; the cells and zones of one data set exercise few of the cases", "anchors": ["zoidberg/fieldtracer.py:EMC3FieldTracer.rz_to_ab"]}
{"id": "C262", "title": "The factor B0/Bpar in J is the change of the area of flux tubes", "statement": "For a field without sources in cylindrical coordinates the area of a flux tube changes along the lines as B0/Bpar, times the ratio of the radii (the toroidal flux is the same in all planes); so the limit of J*dy*dx*dz summed over small cells is the volume of the flux tubes from halfway to the previous plane to halfway to the next, and over all planes the volume of the region. For fields with sources this is false.", "quantifier": "all divergence-free fields with twice differentiable lines, all compact parts of the planes", "why_tests_cant": "the change of variables along the lines for all fields", "anchors": ["zoidberg/zoidberg.py:make_maps"]}
{"id": "C263", "title": "J for fields that are not in cylindrical coordinates", "statement": "J*dy of a cell converges to area times field times the integral of Rfunc/B along the line, with 1 in place of Rfunc if Rfunc returns None (y in metres), for all fields other than Slab.", "quantifier": "all smooth fields with any Rfunc, all cells between planes", "why_tests_cant": "limit in r; the tests only check that J exists", "anchors": ["zoidberg/zoidberg.py:make_maps", "zoidberg/field.py:MagneticField.Rfunc"]}
{"id": "C264", "title": "The flux test of MapWriter prints exactly if flux is lost", "statement": "While the parallel metric is written, FluxError is printed exactly if the magnetic flux through some cell of a parallel slice differs from that through the cell of the grid it is mapped from by more than 1e-6 of it (the two rows at each end in x are not tested).", "quantifier": "all fields, grids and parallel slices", "why_tests_cant": "The test compares two arrays of products of field and area; with the fields of the unit tests (straight or with constant pitch) the strength of the field and its toroidal component differ by one constant factor, so a test cannot tell which one is used.", "anchors": ["zoidberg/zoidberg.py:MapWriter._write_par_metric", "zoidberg/zoidberg.py:get_metric"]}
{"id": "C265", "title": "J and the metric in the same file agree", "statement": "In the limit of closely spaced planes, J in the grid file tends to the square root of the determinant of the covariant metric in the same file.", "quantifier": "all cylindrical fields, planes and cells", "why_tests_cant": "Two numbers of the file that are calculated by different functions are compared in a limit; the files of the unit tests have a few planes, and no test reads both.", "anchors": ["zoidberg/zoidberg.py:make_maps", "zoidberg/zoidberg.py:get_metric"]}
{"id": "C266", "title": "The parallel gradient made of the maps and g_22 is the gradient along the magnetic field", "statement": "On rectangular grids with equidistant planes and an exact tracer, half the difference of the forward and the backward operator of weights.py, applied to the values of a smooth function on the cells, divided by the distance of the planes and by the square root of g_22 of get_metric, tends to the component of the gradient of the function along the magnetic field, B.grad(F)/|B|, with an error of second order in the distance of the planes.", "quantifier": "all grids, fields (Cartesian and cylindrical, of either sign), smooth functions and cells whose two field line ends stay in the grid", "why_tests_cant": "Maps, metric and field come from three functions that are tested separately; the limit and all fields and functions cannot be sampled.", "anchors": ["zoidberg/zoidberg.py:make_maps", "zoidberg/zoidberg.py:get_metric", "zoidberg/weights.py:calculate_parallel_map_operators", "zoidberg/field.py:MagneticField.field_direction"]}
{"id": "C267", "title": "Slices do not depend on the type of the y coordinates", "statement": "The y coordinates of the parallel slices in _write_par_metric are the same for a grid with integer ycoords as for one with the same numbers as floating point numbers.", "quantifier": "all integer y coordinates, periods that pass the test of Ly, periodic or not, and offsets", "why_tests_cant": "Depends on what numpy stores in an array of integers; the unit tests use np.linspace.", "anchors": ["zoidberg/zoidberg.py:MapWriter._write_par_metric", "zoidberg/grid.py:Grid.__init__"]}
{"id": "C268", "title": "smooth does not depend on the type of the coordinates", "statement": "smooth of two arrays of integers gives the same as smooth of the same numbers as floating point numbers.", "quantifier": "all lines of integers, limits, bounds and solvers", "why_tests_cant": "Depends on what numpy stores in an array of integers; the tests use floating point numbers.", "anchors": ["zoidberg/smooth.py:smooth", "zoidberg/smooth.py:gen_newr", "zoidberg/smooth.py:rollup"]}
{"id": "C269", "title": "Second parallel derivatives converge", "statement": "On rectangular grids with equidistant planes and an exact tracer, the sum of the forward and the backward operator of weights.py (made from the maps of make_maps), applied to the values of a smooth function on the cells, minus twice the value in the cell, divided by the square of the distance of the planes, differs from the second derivative of the function along the field line by at most a constant times the square of that distance and the cubes of the spacings of the grid divided by it (and the weights that are skipped).", "quantifier": "all grids, field lines, smooth functions, cells whose two field line ends stay in the evolving region", "why_tests_cant": "all functions and field lines; convergence can only be measured for some", "anchors": ["zoidberg/zoidberg.py:make_maps", "zoidberg/weights.py:calculate_parallel_map_operators", "zoidberg/poloidal_grid.py:RectangularPoloidalGrid.findIndex"]}
{"id": "C270", "title": "fixup of the convergence tests keeps the metric a metric", "statement": "For every grid file as write_maps makes it (names g11, g12, g13, g22, g23, g33, missing ones being zero) whose contravariant metric is positive definite at every point, fixup of test/mms/mms-fci.py succeeds; the new metric is positive definite at every point, every component keeps its sum over each x surface and stays between its bounds there; J is removed and everything but the metric is kept.", "quantifier": "all sizes, all positive definite metrics", "why_tests_cant": "all metrics; positive definiteness after six passes depends on all cells", "anchors": ["test/mms/mms-fci.py:fixup", "test/mms/mms-fci.py:diff2"]}
{"id": "C271", "title": "fixup of the convergence tests writes inverse tensors", "statement": "After fixup of test/mms/mms-fci.py the covariant components g_ij of the file (i <= j, symmetric) are the inverse of the contravariant components gij at every point.", "quantifier": "all sizes, all positive definite metrics", "why_tests_cant": "all metrics", "anchors": ["test/mms/mms-fci.py:fixup"]}
{"id": "C272", "title": "Angles of the convergence test", "statement": "test of test/mms/mms-fci.py compares with the solution at the toroidal angle of each plane: the planes are at the angles 2 pi / 5 / ny * k, with one more plane at each end.", "quantifier": "all ny, all planes", "why_tests_cant": "all numbers of planes; the test itself only prints norms", "anchors": ["test/mms/mms-fci.py:test"]}
{"id": "C273", "title": "Order of convergence found by do_tests", "statement": "If the errors of the last two grids are between c n^-p and C n^-p, the order found by do_tests of test/mms/mms_helper.py differs from p by at most log(C/c)/log(n2/n1), whatever the errors of the other grids are; it is p if they are c n^-p; and do_tests passes exactly if the order of every mode is within 0.3 (and 1e-5 expect) of the expected one.", "quantifier": "all lists of errors and numbers of points", "why_tests_cant": "continuous, all lists", "anchors": ["test/mms/mms_helper.py:do_tests"]}
{"id": "C274", "title": "Volume from cross sections", "statement": "torus_volume_from_sections_periodic of test_volume_dommaschk.py gives, in both modes, the volume of one period of a torus: the sum of area times radius of the centre times angle for sections at equal angles, and area times 2 pi R / symmetry (Pappus) for a section that does not change, whatever the angles are; where the polygons begin and which way round they go makes no difference.", "quantifier": "all sections, angles and symmetries", "why_tests_cant": "continuous, all numbers of sections", "anchors": ["zoidberg/test_volume_dommaschk.py:torus_volume_from_sections_periodic", "zoidberg/test_volume_dommaschk.py:calculate_dommaschk_volume"]}
{"id": "C275", "title": "The volume test for the Dommaschk field detects errors that grow", "statement": "The assertion of test_run of test_volume_dommaschk.py holds only if the error decreases from each grid to the next.", "quantifier": "all errors of the three grids", "why_tests_cant": "about the test itself", "anchors": ["zoidberg/test_volume_dommaschk.py:test_run"]}
{"id": "C276", "title": "The volume test for slabs detects errors that grow", "statement": "The assertion of test_slab_volume of test_volume_slab.py holds only if the error decreases with the refinement.", "quantifier": "all errors of the five refinements", "why_tests_cant": "about the test itself", "anchors": ["zoidberg/test_volume_slab.py:test_slab_volume"]}
{"id": "C277", "title": "The discrete Laplacian is symmetric and loses energy", "statement": "With the coefficients of doit the operator applied by test is symmetric for fields that vanish in the first and last rows, and the sum of field times operator is never positive, so that diffusion never adds energy.", "quantifier": "all grids with non-singular stencils and positive volumes, all fields", "why_tests_cant": "all fields and grids", "anchors": ["zoidberg/stencil_dagp_fv.py:doit", "zoidberg/stencil_dagp_fv.py:test"]}
{"id": "C278", "title": "A step of diffusion makes no new extremes", "statement": "For a short enough step dt the value f + dt * result / volume in an interior cell stays between the smallest and the largest value of f.", "quantifier": "all grids with non-singular stencils and positive volumes, all fields", "why_tests_cant": "all fields, all steps", "anchors": ["zoidberg/stencil_dagp_fv.py:doit", "zoidberg/stencil_dagp_fv.py:test"]}
{"id": "C279", "title": "The test of c2 notices a wrong value at an end", "statement": "test_diff_c2_np fails for an operator whose error at the first or the last point does not decrease with the square of the distance of the points.", "quantifier": "all operators on arrays in place of c2", "why_tests_cant": "about the test itself", "anchors": ["zoidberg/test_diff.py:test_diff_c2_np", "zoidberg/test_diff.py:test_diff_c4_np", "zoidberg/test_diff.py:check_l2s"]}
{"id": "C280", "title": "Length of a straight field line", "statement": "field_line_length of points that follow each other on a straight line is the distance of the first and the last one, for every refine, as test_diff_field_line_length checks for one line.", "quantifier": "all straight lines, points on them, refinements", "why_tests_cant": "all lines and points; the test has one line and tolerances", "anchors": ["zoidberg/diff.py:field_line_length", "zoidberg/test_diff.py:test_diff_field_line_length"]}
{"id": "C281", "title": "modify_maps leaves the arrays of the caller as they are", "statement": "modify_maps works on the dictionary it is given: arrays that the caller also holds in another way, for instance in a dictionary of which a shallow copy was passed, have the same entries after the call, so that calls on copies do not depend on each other.", "quantifier": "all map dictionaries, both values of partial_boundaries, calls that return and calls that raise", "why_tests_cant": "aliasing: a test sees one dictionary after one call, here every object in memory before and after is compared, for all maps", "anchors": ["zoidberg/weights.py:modify_maps"]}
{"id": "C282", "title": "The polygon test notices whether smooth changed the points", "statement": "The assertions of test_assert_npolygons hold only if smoothing did what their comments say: in the first and third run the points have been changed, in the second run (no smoothing done) they are the same as before.", "quantifier": "all behaviours of smooth (every result of the solver), all polygons", "why_tests_cant": "a statement about the test itself: for which wrong versions of smooth it would still pass", "anchors": ["zoidberg/test_smooth.py:run_npolygons", "zoidberg/test_smooth.py:test_assert_npolygons"]}
{"id": "C283", "title": "distance along a circle is the length of the arc", "statement": "For a line made by circle(R0, r, n), distance() has n+1 entries, begins at zero, grows strictly, and entry i is the length 2 pi |r| i / n of the arc up to an error proportional to that of the derivative of the splines; with straight segments each step is 2 |r| sin(pi/n).", "quantifier": "all R0, all r other than 0, all n of at least 3, all numbers of samples, all splines", "why_tests_cant": "tests take one or two radii and a tolerance; the statement is for all radii and gives the error in terms of that of the splines", "anchors": ["zoidberg/rzline.py:RZline.distance", "zoidberg/rzline.py:circle", "zoidberg/test_rzline.py:test_distance"]}
{"id": "C284", "title": "smooth on a circle changes all points or none", "statement": "For points evenly spaced on a circle, find_outliers with the distance b finds all points if cos(pi b / m) is below the limit and none otherwise; so smooth returns the circle unchanged if the limit is at most cos(pi bounds / m).", "quantifier": "all centres, radii, numbers of points m, distances with 2 b < m, limits", "why_tests_cant": "all sizes of the circle and all limits; a test takes one", "anchors": ["zoidberg/smooth.py:find_outliers", "zoidberg/smooth.py:smooth"]}
{"id": "C285", "title": "find_outliers compares the angle at the point with the limit", "statement": "As the documentation of smooth says: a point is replaced if the cosine of the angle between it and the points +- bounds, i.e. between the directions of the line before and after the point, is below cutoff.", "quantifier": "all closed lines, all points, distances and limits", "why_tests_cant": "the angle compared is another one; tests with one polygon see only whether some points are found", "anchors": ["zoidberg/smooth.py:find_outliers", "zoidberg/smooth.py:smooth"]}
{"id": "C286", "title": "Maps of a slab on a rectangular grid", "statement": "For every Slab field on every rectangular grid, periodic or not, with exactly traced field lines, the maps of make_maps for the slice d are the x index and the z index plus slope times the distance of the planes over dz where the plane y + d exists, and -1 where it does not; hence the assertions of test_make_maps_slab hold exactly if the lines move by at most 1e-8 cells over the planes of every slice.", "quantifier": "all slabs, rectangular grids, numbers of slices and cells", "why_tests_cant": "the tests use one field with no z component and one grid", "anchors": ["zoidberg/zoidberg.py:make_maps", "zoidberg/field.py:Slab", "zoidberg/grid.py:rectangular_grid", "zoidberg/poloidal_grid.py:RectangularPoloidalGrid.findIndex", "zoidberg/test_zoidberg.py:test_make_maps_slab"]}
{"id": "C287", "title": "Points of the grids of the convergence tests", "statement": "For every one of the five modules that make grids for the convergence tests, every mode, all sizes and all 0 < r0 < r1: the rows have increasing radii from r0 to r1, the points of a row are on the circle (or stretched circle) with this radius around (R0, 0), all points of the grid are different, and with at least four points every row goes once anticlockwise around the axis.", "quantifier": "all modules, modes, sizes and radii", "why_tests_cant": "the tests use a few sizes; the claim is about real functions of the angle", "anchors": ["test/mms/parallel_grid.py:gen_grid", "test/mms/poloidal_grid.py:gen_grid", "test/mms/radial_grid.py:gen_grid", "test/mms/delp_grid.py:gen_grid", "test/mms/laplace_grid.py:gen_grid", "test/mms/poloidal_grid.py:var1"]}
{"id": "C288", "title": "Names of the grids of the convergence tests", "statement": "gen_grid of the convergence tests writes the grid for its arguments to the file with the name that gen_name gives for these arguments, and grids with different arguments have different names.", "quantifier": "all modules, arguments and callers", "why_tests_cant": "all arguments; the test programs only use their own lists", "anchors": ["test/mms/parallel_grid.py:gen_grid", "test/mms/parallel_grid.py:gen_name", "test/mms/radial_grid.py:gen_grid", "test/mms/delp_grid.py:gen_grid", "test/mms/laplace_grid.py:gen_grid", "test/mms/poloidal_grid.py:gen_grid"]}
{"id": "C289", "title": "Files of results of the convergence tests", "statement": "After do_tests there is a file with the results of every entry of grids.", "quantifier": "all modules, names of inputs and results", "why_tests_cant": "the files are not looked at by tests", "anchors": ["test/mms/mms_helper.py:do_tests", "test/mms/radial_grid.py:grids"]}
{"id": "C290", "title": "Maps of fields along y", "statement": "For a field without components in the poloidal plane on a grid of one structured poloidal grid with regular coordinates, as in the convergence tests, the positions of every slice are those of the grid points and the indices are those of the grid points in all rows but the first and the last, where the x index is -1 and nx; planes that do not exist have the index -1.", "quantifier": "all such grids, slices and cells", "why_tests_cant": "all grids", "anchors": ["zoidberg/zoidberg.py:make_maps", "zoidberg/poloidal_grid.py:StructuredPoloidalGrid.findIndex", "test/mms/parallel_grid.py:gen_grid"]}
{"id": "C291", "title": "The tracers in slabs and their tests", "statement": "In every Slab and CurvedSlab whose By is not refused, FieldTracerReversible gives x = x0 and z = z0 + dz/dy(x0) (y - y0) exactly, for every positive tolerance, eps, number of sub-steps, list of y, and for scalars and (separate) arrays of floating point numbers; trace_poincare with an exact integrator gives these points at y_slices[p] + r*yperiod. Hence test_slab, test_FieldTracerReversible_slab and test_poincare pass in exact arithmetic, the first two for every tracer that is exact.", "quantifier": "all slabs, starting points, values of y, tolerances and numbers of sub-steps", "why_tests_cant": "the tests use one slab, two calls and the default tolerances", "anchors": ["zoidberg/fieldtracer.py:FieldTracerReversible.follow_field_lines", "zoidberg/fieldtracer.py:FieldTracer.follow_field_lines", "zoidberg/fieldtracer.py:trace_poincare", "zoidberg/field.py:Slab", "zoidberg/field.py:CurvedSlab", "zoidberg/test_fieldtracer.py:test_slab", "zoidberg/test_fieldtracer.py:test_FieldTracerReversible_slab", "zoidberg/test_fieldtracer.py:test_poincare"]}
{"id": "C292", "title": "Cross sections of the exact volume", "statement": "calculate_dommaschk_volume of test_volume_dommaschk.py makes of the traced points of each plane a polygon with as many corners at equal angles around (R0, 0): the angles of calc_divertortheta lie in [0, 2 pi) and with the distances give the points; the distance of every corner lies between the least and the greatest distance of the points; at the angle of a point the corner is that point; the order of the points makes no difference. For points on a circle of radius a the corners lie on it, the area is n/2 a^2 sin(2 pi / n), less than pi a^2 by a fraction of at most 2/3 (pi/n)^2, and the centre is at R0.", "quantifier": "all points at different angles, all centres", "why_tests_cant": "continuous; the test only traces one field and compares the volume with that of one grid", "anchors": ["zoidberg/test_volume_dommaschk.py:calc_divertortheta", "zoidberg/test_volume_dommaschk.py:calculate_dommaschk_volume"]}
{"id": "C293", "title": "Reference volume of the volume test for slabs", "statement": "The field fld of test_volume_slab.py repeats after a turn, leaves its lines where they are, and is positive everywhere with the coefficients of the test. The reference volume of test_slab_volume converges with the square of the distance of its angles to the volume of the flux tube, area times field in the plane times the integral of R dphi / B over the cell (exactly the area times the arc in a constant field), so that the error of the test is at most C/r^2 + D/(n-1)^2 for the refinement r of make_maps and n angles of the reference.", "quantifier": "all positive fields with two continuous derivatives, all cells between equally spaced planes, all r and n", "why_tests_cant": "continuous; the test has one field, one cell and five refinements", "anchors": ["zoidberg/test_volume_slab.py:polyfunc", "zoidberg/test_volume_slab.py:fld", "zoidberg/test_volume_slab.py:test_slab_volume", "zoidberg/zoidberg.py:make_maps"]}
{"id": "C294", "title": "Volume of a curvilinear grid in a torus", "statement": "In an axisymmetric toroidal field with equally spaced planes, J dx dz of every cell of a curvilinear poloidal grid is the area spanned by the derivatives of the coordinates times the major radius, so that the volume summed up in dommaschk_grid_volume is Ly times the sum of these. For a grid between two concentric circles the sum does not depend on the number of planes, of points in a row or of points along the line, and converges to the volume between the circles with the first order in the number of rows and not faster: the first and the last row lie on the lines, so their cells reach over them by half; for rows at equal distances the volume is too large by the factor nx/(nx-1). With such errors the assertion of test_run holds.", "quantifier": "all axisymmetric toroidal fields that are not zero, all curvilinear grids with a metric, all nx >= 2, nz >= 2, ny, nslice, refinements and numbers of samples", "why_tests_cant": "continuous; the test has three grids of one field and looks at the slope of the error only", "anchors": ["zoidberg/test_volume_dommaschk.py:dommaschk_grid_volume", "zoidberg/test_volume_dommaschk.py:test_run", "zoidberg/zoidberg.py:make_maps", "zoidberg/poloidal_grid.py:StructuredPoloidalGrid.metric", "zoidberg/grid.py:Grid.metric"]}
{"id": "C295", "title": "The tests of lines", "statement": "test_line_from_points passes exactly if the points of the reconstructed line are those of the original one, beginning at some point and in the same direction, within the tolerances of np.allclose; it then has the same signed area within a bound of the order of the tolerances, so that a line in the other direction is noticed unless it is very thin. It passes for all circles and all lines whose neighbours are the nearest points, whatever the order of the points. test_circular_boundaries passes for circles with any number of points, and looks at the range of R only.", "quantifier": "all lists of points, all permutations, all numbers of points", "why_tests_cant": "the tests have one line and one permutation", "anchors": ["zoidberg/test_rzline.py:test_line_from_points", "zoidberg/test_rzline.py:test_circular_boundaries", "zoidberg/rzline.py:line_from_points", "zoidberg/rzline.py:circle"]}
{"id": "C296", "title": "The tests of grids", "statement": "test_getPoloidalGrid passes for a grid exactly if it is not periodic, has the number of planes and (within the tolerances of np.allclose) the length of the test, and its first and last planes are where the test has them; planes between them are not noticed. test_getPoloidalGrid_periodic passes exactly if the grid is periodic, has the number of planes and a positive length. So rectangular_grid passes the first one, with its own numbers, exactly without yperiodic and the second one exactly with it and a positive Ly.", "quantifier": "all grids, numbers of planes, coordinates and lengths", "why_tests_cant": "the tests have one grid of each kind", "anchors": ["zoidberg/test_grid.py:test_getPoloidalGrid", "zoidberg/test_grid.py:test_getPoloidalGrid_periodic", "zoidberg/grid.py:Grid.getPoloidalGrid", "zoidberg/grid.py:rectangular_grid"]}
{"id": "C297", "title": "The tests of slabs", "statement": "test_slab and test_curved_slab pass for a field exactly if its components are within the tolerances of np.allclose at all points of the diagonal x = z in the plane 0. A slab with the By and Bz of the test passes exactly if |x - xcentre| times the absolute shear is within the tolerance of Bz at all points, for the points of the test exactly if nine times the shear is. Without shear it passes for any values and any points, and the major radius of a curved slab is not noticed.", "quantifier": "all fields, values of By, Bz, xcentre, Bzprime, Rmaj and lists of points", "why_tests_cant": "the tests have one slab of each kind and ten points", "anchors": ["zoidberg/test_field.py:test_slab", "zoidberg/test_field.py:test_curved_slab", "zoidberg/field.py:Slab", "zoidberg/field.py:CurvedSlab"]}
{"id": "C298", "title": "The periodic tests of the finite differences", "statement": "For every number of points (at least five) periodic c2 and c4 multiply the derivative of the sine by sin(h)/h and (8 sin(h) - sin(2h))/6h at every point, so that the error measured by the tests is the distance of this factor from one over the square root of two. An operator with such a factor passes a test exactly if the logarithm of the ratio of these distances for 64 and 128 points is within the tolerance of the order. So test_diff_c2_per and test_diff_c4_per pass, and c2 with a factor that is wrong by more than a quarter per cent would not.", "quantifier": "all numbers of points, all operators that multiply the derivative of the sine by a factor", "why_tests_cant": "the tests have two numbers of points and one operator each", "anchors": ["zoidberg/test_diff.py:test_diff_c2_per", "zoidberg/test_diff.py:test_diff_c4_per", "zoidberg/test_diff.py:mms", "zoidberg/test_diff.py:l2", "zoidberg/diff.py:c2", "zoidberg/diff.py:c4"]}
{"id": "C299", "title": "The tests of distances along a line", "statement": "Without weights the whole distance along a line of splines is 2 pi times the mean of the speed at the samples, 20 for each point. So test_distance passes for two lines exactly if the first has the number of points of the test, the distance grows from each of its points to the next, and the mean speeds are 1 and 2 within the tolerance; it passes for all splines with a speed within a part in 100000 of that of the circles. test_order_by_distance never fails with an assertion: if equallySpaced gives a line, it has the number of points asked for.", "quantifier": "all lines of splines, all numbers of points", "why_tests_cant": "the tests have two circles with 50 points and one with 20", "anchors": ["zoidberg/test_rzline.py:test_distance", "zoidberg/test_rzline.py:test_order_by_distance", "zoidberg/rzline.py:RZline.distance", "zoidberg/rzline.py:RZline.equallySpaced"]}
{"id": "C300", "title": "The test of the web tracer notices large steps", "statement": "test_traceweb passes only if no step along a field line, from one y value to the next, is 0.05 or longer, as its comment says.", "quantifier": "all results of the web tracer", "why_tests_cant": "needs a remote service; all tracers, also wrong ones", "anchors": ["zoidberg/test_fieldtracer.py:test_traceweb", "zoidberg/fieldtracer.py:FieldTracerWeb.follow_field_lines"]}
{"id": "C301", "title": "The grid of the stellarator test fits within the coils", "statement": "All points of the rectangular grid in test_make_maps_straight_stellarator are within the coils, as its comment says; for all sizes, a rectangular grid whose half diagonal is shorter than the radius of the coils is within them, and the field on it is bounded for all y.", "quantifier": "all sizes of grids, radii, currents, periods and y", "why_tests_cant": "the test only calls make_maps; all y", "anchors": ["zoidberg/test_zoidberg.py:test_make_maps_straight_stellarator", "zoidberg/grid.py:rectangular_grid", "zoidberg/poloidal_grid.py:RectangularPoloidalGrid", "zoidberg/field.py:StraightStellarator"]}
