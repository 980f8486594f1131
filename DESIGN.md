# Formal model of zoidberg

The properties in `properties.jsonl` are stated and proved about a model of the
Python sources in `/repo/zoidberg`, written in Lean 4 under `lean/Verif`.

## Layout

- `Verif/Prelude/*` : the Python/numpy primitives the code relies on (ranges, rolls, slices, `array_split`, `linspace`, `gradient`, truncation, floor modulo, clip, dictionaries).
- `Verif/Model/*` : the code, function by function. Every definition cites file and lines and says what was simplified.
- `Verif/Spec/*` : the independent statements (what a user expects), which do not mention the helpers of the model.
- `Verif/Proofs/*` : auxiliary lemmas.
- `Verif/Props/*` : the property theorems, each next to an `example` showing that its hypotheses are satisfiable in a non-trivial case.

## Trusted base

- The Lean 4.33.0 kernel, and the axioms `propext`, `Classical.choice`, `Quot.sound` only. No other axiom, no `sorry`, no `native_decide`, no `bv_decide`.
- That the model describes the code. The conventions below are the gap.

## Modelling conventions (the gap between model and code)

- **Floating point is exact arithmetic.** Functions are polymorphic in an ordered field `K` (examples use the rationals), or over the reals if roots, pi or derivatives are needed. Rounding, overflow, NaN and signed zeros are not modelled unless a definition says so. Tolerances in the code (1e-8, 1e-10, ...) are kept as the exact rational numbers.
- **Integers are unbounded** (numpy's 64-bit wrap-around is not modelled).
- `int(x)` is truncation toward zero; `%`, `//` and `np.remainder` are floor based.
- **Arrays.** One-dimensional arrays are lists, three-dimensional ones functions of an index triple together with their shape. A loop that assigns entries is a fold of `Function.update`. `np.empty` is an arbitrary initial content, passed as a parameter.
- **Exceptions** are values of `Except`; where the state reached at the exception matters, it is returned as well.
- **External code** (scipy interpolants and ODE integrators, netCDF, web services) is a parameter of the model; what is assumed about it is a hypothesis in the theorem.
- Plotting, printing, documentation helpers and file parsing are not modelled.


## Property by property

- **C01 Global cell numbers form a bijection onto 0..total_cells-1.** Model the loops as folds over the (x,y,z) ranges carrying (array, counter); invariant by induction: the assigned values are an initial segment of N and each write hits a fresh index.
- **C02 Evolving cells come first, in (x,y,z) order.** Same fold; closed form of the k-th element of the lexicographic triple range.
- **C03 A parallel boundary cell exists exactly where a field line leaves the domain.** Same fold; the `if` guard of each write, plus a separate specification of 'hits'.
- **C04 Leg rows are numbered without gaps or clashes.** Fold in build_leg_space_metadata, same numbering lemma as C01 (each cell contributes 0, 1 or 2 numbers).
- **C05 Leg weights of every source cell add up to one.** Sum over a list split by a boolean mask; model of _get_subcell_weights as Except.
- **C06 CSR export is faithful.** to_csr modelled with cumulative sums and writes into preallocated (arbitrary) arrays; theorem about drop/take of the result.
- **C07 Accumulating into a sparse row is addition.** Induction over a list of add operations (invariant: no duplicate column; total per column).
- **C08 Catmull-Rom weights reproduce quadratics.** Polynomial identity over any field (`ring`).
- **C09 Weight is moved off the radial guard cells without loss.** Case split on the position of the stencil; lists of length four written out.
- **C10 Operator assembly succeeds on every well-formed map.** Totality of the Except-valued model: show that the result is `ok` using C01, C04, C08, C09.
- **C11 Interior rows only couple to evolving cells of the neighbouring plane.** Invariant of the accumulation loop: every column added is the number of an evolving cell.
- **C12 Every operator row sums to one up to the drop tolerance.** Sum of the row through C07; skipped weights bounded by 1e-10 each; z weights sum to 1. Needs a bound on the L1 norm.
- **C13 The assembled operator is the documented interpolation.** Row dot field computed through C07, rewritten as a nested sum (specification written independently). Proved for non-negative mapped z only; refuted for negative z, where `int()` truncates toward zero.
- **C14 Stencils are periodic in z.** Direct computation for non-negative z; refutation by a concrete negative z.
- **C15 modify_maps(partial_boundaries=True) marks exactly the cells with an escaping sub-sample.** Fold over all cells with Function.update; pointwise characterisation.
- **C16 modify_maps(partial_boundaries=False) removes all partial intersections.** As C15, then C04 applied to the filtered maps.
- **C17 Boundary marks and operators are consistent.** Refutation with a concrete map and partial theorem under 'centre is a sub-sample'.
- **C18 modify_maps removes the sub-sample arrays and keeps everything else.** Map dictionary as a finite map from strings; pop/update modelled on association lists.
- **C19 Periodic lookup of poloidal grids.** Integer arithmetic of floor division and remainder.
- **C20 y_last <= y <= y_next.** From C19 and monotonicity of the coordinate list; case analysis at the period boundary.
- **C21 Non-periodic grids end.** Decision logic.
- **C22 Fractional indices interpolate y.** Fractional branch with the recursive call; refutation for f=1/4.
- **C23 A Jacobian is taken from all slices or none.** Counter invariant by induction over the slices.
- **C24 dy of uniform and of increasing grids.** np.gradient modelled on lists (edges one sided, interior central).
- **C25 dy respects periodicity at the ends.** Refutation with a concrete non-uniform list, and partial theorem for uniform lists.
- **C26 rectangular_grid spacing.** linspace/arange in closed form.
- **C27 get_metric can be repeated.** Grid cache as explicit mutable state; get_metric as state transformer.
- **C28 Parallel metric components are reciprocal and bounded.** Field arithmetic over the reals with sqrt for |B|.
- **C29 Writing the metric resets the cache.** State transformer for _write_metric; induction over histories.
- **C30 Names of parallel slice fields are unique.** Strings as lists of characters; injectivity of decimal rendering; refutation of the unrestricted claim.
- **C31 make_maps returns the documented set of arrays.** Symbolic execution of the key bookkeeping over the offset list.
- **C32 A slice index is -1 exactly where the field line leaves the domain in y or through the boundary.** Model the tracing loop per offset and slice with the tracer, findIndex and outside as parameters.
- **C33 Sub-sample maps are filled for every offset.** Same loop; the store of xt_primes after the inner loop is modelled literally; refutation for nslice=2.
- **C34 Sub-sample start points are the quadrature points of the cell.** Sub-sample loop modelled literally; refutation on a concrete rectangular grid.
- **C35 Every cell of J, Ly and By is written exactly once.** np.array_split modelled with divmod; partition theorem by induction.
- **C36 Windows of the parallel integral.** Index arithmetic of the slices.
- **C37 Metric renaming loses nothing.** Dictionaries as functions String -> Option value; renaming fold.
- **C38 No non-finite array reaches the grid file.** Writer as state machine with a log of written entries; induction over the dictionary.
- **C39 Unwrapped slice coordinates.** The modulus/unwrapping formula over integers and ordered fields.
- **C40 add_dagp survives interruption.** File as a state (dictionary + attributes); every write is a step; crash = any prefix of the step list; induction over crashes.
- **C41 Updating file attributes never destroys old ones.** while-loop over names 'old'*k with a finite set of existing attributes; pigeonhole termination.
- **C42 MapWriter ordering protocol.** State machine with exceptions keeping the state reached.
- **C43 upscale index order.** Index arithmetic of reshape/transposition.
- **C44 Rectangular grid index and coordinate are inverse.** Field arithmetic.
- **C45 Rectangular grid is centred with the boundary half-way between guard and domain.** Field arithmetic.
- **C46 Higher derivatives of the rectangular grid vanish.** Decision logic, refutation.
- **C47 findIndex returns a converged index or a boundary marker.** Newton loop modelled with fuel and uninterpreted interpolants; postcondition by loop invariant.
- **C48 findIndex terminates and never leaves the index range.** Iteration counter and clipping invariant of the same loop.
- **C49 Poloidal metric is a positive definite inverse pair with the right area.** 2x2 linear algebra over the reals.
- **C50 grid_annulus lies between its boundaries.** Lists of points, linspace.
- **C51 grid_elliptic keeps its boundary rows and size.** One sweep as a function on arrays; induction over sweeps.
- **C52 A converged elliptic grid satisfies the documented equation.** Algebraic rearrangement of the update formula.
- **C53 Coarsening recursion terminates.** Sizes recursion with well-founded measure.
- **C54 RZline is always anticlockwise.** Orientation sum over a cyclic list, antisymmetric under reversal.
- **C55 Polygon position joins control points by straight lines.** Floor arithmetic; refutation with a concrete polygon.
- **C56 distance() is a cumulative arc length.** Cumulative sums over lists with an abstract non-negative length.
- **C57 line_from_points uses every point exactly once.** Nearest neighbour loop with explicit lists; permutation invariant and argmin.
- **C58 line_from_points_poly uses every point exactly once.** Insertion loop; permutation invariant.
- **C59 line_from_points_fast and hull orderings permute the points.** Stable sort by key.
- **C60 2-opt keeps the points, never lengthens the route and terminates.** 2-opt as fuel-bounded loops; route length is a strictly decreasing measure over the finite set of permutations.
- **C61 closestPoint returns an angle in [0, 2pi).** Angle wrap at the end of the function; argmin.
- **C62 Rectangular boundary.** Decision logic.
- **C63 Polygon boundary is the even-odd rule.** Parity fold over edges; refutation with the diamond.
- **C64 c4 is exact for quartics at every point.** Polynomial identities at each of the five kinds of points.
- **C65 c2 is second order everywhere.** Polynomial identities; refutation at the edge.
- **C66 Periodic differences conserve and commute with shifts.** Cyclic sums.
- **C67 field_line_length is at least the chord.** Triangle inequality for integrals or, at least, for polygonal lengths.
- **C68 Chunking does not change traced field lines.** Chunk loop over lists, integrator as a pointwise parameter.
- **C69 Input validation of tracers.** Decision logic over shapes.
- **C70 FieldTracerReversible is reversible.** Affine Newton step over matrices 2x2; symmetric implicit relation.
- **C71 Tracers do not modify their input.** Aliasing modelled with a heap cell.
- **C72 trace_poincare returns the requested planes.** Index arithmetic of sorting, oversampling slices.
- **C73 Caching is transparent.** Cache as a finite map; induction over histories.
- **C74 Web tracer retries.** Retry loop against an arbitrary failure schedule.
- **C75 EMC3 angle reduction.** While loops with a well-founded measure.
- **C76 EMC3 cell coordinates round-trip.** Bilinear algebra.
- **C77 rtol overrides targetError in FusionSCTracer.** Decision logic over keyword dictionaries.
- **C78 field_direction.** List processing over ordered fields.
- **C79 Stellarator fields are divergence free and derive from A.** Derivatives over the reals (HasDerivAt of log).
- **C80 Screwpinch field lines stay on circles.** Derivative of r^2 along a field line.
- **C81 Slab field lines have the closed form.** Derivative/closed form.
- **C82 Attributes of one field do not leak into another.** Class dictionary as shared heap cell.
- **C83 Cell volumes of rectangular grids.** Shoelace sum over the outline points.
- **C84 DAGP fluxes are exact for linear functions.** 2x2/3x3 linear algebra of the face coefficients; telescoping outline sums.
- **C85 DAGP is conservative.** Telescoping cyclic sums.
- **C86 DAGP coefficients survive write and load.** Array reshaping.
- **C87 Exported volume is determined by the grid.** np.empty as parameter; the result is shown to depend on it.
- **C88 Runs of points to smooth.** Run-splitting loop; induction.
- **C89 rollup replaces exactly one cyclic window.** roll and slice assignment on lists.
- **C90 smooth does not index past the end.** Index arithmetic, refutation.
- **C91 smooth terminates.** Loop with a counter.
- **C92 format_time is an exact mixed-radix decomposition.** divmod arithmetic.
- **C93 Progress bar stays in its frame.** round/int bounds.
- **C94 Spectral line resampling gives distinct points.** linspace, refutation.
- **C95 A failed metric write does not influence later ones.** Same state transformer as C29, with the cache left behind by a failing call.
- **C96 n_chunks does not change the maps.** Every cell of J, Ly, By is given by a closed formula (C36) in which the chunk does not occur.
- **C97 Sub-cell weights are a partition of unity.** Sum over a product of two lists.
- **C98 The grid file contains the metric under the documented names.** State transformer for _write_metric; dictionary lookups through set, rename and write.
- **C99 Parallel metric components in the file are reciprocal.** From C98 and C28 without Ly; refutation with Ly.
- **C100 Periodic grids with increasing planes can be written.** Closed form of the unwrapped coordinates of increasing lists; then the two assertions; refutation.
- **C101 The metric of every parallel slice is in the file.** Names of different slices are disjoint (C30); induction over the slices.
- **C102 Slice coordinates on open grids.** Index arithmetic of roll; refutation with three planes.
- **C103 add_dagp writes the coefficients of the current grid.** From C40 for new files; refutation with two grids.
- **C104 An interrupted update of the attributes loses nothing.** Prefixes of the write list; refutation.
- **C105 write_maps leaves a complete grid file.** Frame lemmas for every write, then C38, C98, C101 and C42 combined.
- **C106 The sizes in the file are those of the grid.** Invariant over the calls; refutation by reopening.
- **C107 upscale keeps the planes it was given.** C43 for the positions; at the start of a field line the points are the grid points.
- **C108 The progress bar of upscale changes nothing.** Only the progress value differs; refutation with one plane.
- **C109 findIndex is exact where coordinates are linear.** One Newton step is exact; four passes with distance zero end the loop.
- **C110 Grid points are found at their indices.** Points that have arrived do not move; refutation for every grid and every point of the two rows.
- **C111 Coordinates are periodic in z and exact at grid points.** The remainder is periodic; index j + nz is in the middle copy of the data.
- **C112 metric works exactly for regular grids.** det g is the square of the Jacobian times (nx nz)^2.
- **C113 fft_smooth without removed modes changes nothing.** Telescoping sum; refutation with the angles 0, 1, 3.
- **C114 Inner angles are monotonic and within maxfac_inner.** Conditions of the loops and of the assertion at the end.
- **C115 Smoothing the inner angles keeps the number of turns.** One step makes each distance a mean of itself and its neighbours, so that none leaves the interval in which the remainder is the identity.
- **C116 maxfac_inner = 1 makes the inner points equally spaced.** The ratio is zero, the result is the linspace modulo 2 pi; refutation for all lists with equal distances.
- **C117 New planes of upscale lie along the field lines.** Position of the element after twizzle; the values of griddata at data points.
- **C118 closestPoint is no farther than any control point.** The first refinement contains the nearest control point if the number of subdivisions is even; near the first point it is lost, because negative angles are another segment.
- **C119 equallySpaced divides the length into equal parts.** np.interp is the inverse of the piecewise linear distance.
- **C120 equallySpaced keeps the spline order.** False: the order is not handed on and is always three.
- **C121 One bad candidate does not spoil line_from_points.** False: an AssertionError of a candidate with area zero is not caught.
- **C122 line_from_points_poly inserts on the edge that closestPoint found.** True while the points so far are anticlockwise. False otherwise, because RZline reverses its copy of the points and the index is used on the originals.
- **C123 circle is the anticlockwise circle.** Shoelace formula, telescoping sum; the points are not reversed because the area is positive.
- **C124 Length of a circular field line.** Chord length 2 R sin(x); bounds of sin.
- **C125 Polygon boundary of a convex polygon.** Exactly one edge to the left and one to the right crosses a vertical line. False for the x of a vertex and for thin edges.
- **C126 Polygon and rectangle agree.** True except at the height of the lower side and for boxes narrower than 1e-6.
- **C127 The splines of RZline.** Unfold the reduction of the angle and the calls of splrep; the spline itself is a parameter.
- **C128 Chunks given to the integrator.** Arithmetic of array_split with len//1000 parts.
- **C129 trace_poincare leaves y_slices of the caller alone.** Refute with two slices in decreasing order.
- **C130 Results of FieldTracerReversible depend on values only.** Refute with a field in x direction.
- **C131 FieldTracerReversible accepts integers.** Refute; a result, if there is one, is the same.
- **C132 The text that is hashed determines the arguments.** Refute with two pairs of arrays; prove it for one array.
- **C133 Web tracer chunks.** Induction over the slices and over the retries.
- **C134 EMC3 lines across the end of the period.** Refute with a cell that moves by one half in each period; prove it for planes of the same period.
- **C135 FusionSC coordinates.** sin^2+cos^2=1.
- **C136 RotatingEllipse is divergence free.** Refute with a concrete configuration; prove the value of the divergence.
- **C137 Half of the period.** Permutation of the coil list.
- **C138 Screwpinch field and its Afunc.** Refute with a point; prove it at distance two and prove that the planar divergence vanishes.
- **C139 GEQDSK surfaces.** Chain rule and constant functions on intervals.
- **C140 VMEC components.** Derivative of a sum over modes; refute with two modes.
- **C141 Average over the surfaces.** Read off the values; refute with constants.
- **C142 Interpolated fields are periodic.** Remainder of a sum.
- **C143 Damping of SmoothedMagneticField.** Case analysis; refute with a constructed object.
- **C144 Saved W7X fields.** Induction over the calls with an invariant of the files; refutations with two calls.
- **C145 Two attempts per chunk.** Unfold the loop.
- **C146 Fields in Cartesian coordinates.** sin^2+cos^2=1.
- **C147 Default range of the W7X grids.** Refute with two points.
- **C148 W7X configurations.** Case analysis.
- **C149 EMC3 Bmag is filled.** List lemmas.
- **C150 Dommaschk fields are vacuum fields.** Recurrences of alpha, beta and delta; two families of solutions of the radial equation; sums over k and over the modes.
- **C151 Boundary values of the Dommaschk functions.** Antisymmetric sums; the Wronskian of the families is constant.
- **C152 Dommaschk field at R = R_0.** From C151.
- **C153 Periods of the Dommaschk field.** Periodicity of sin and cos.
- **C154 Cells tile the domain.** Edge sums, telescoping in x and z.
- **C155 DAGP on rectangular grids is the five point Laplacian.** Explicit face vectors; wrap of the differences.
- **C156 doit checks the grids.** Inversion of the monadic code.
- **C157 Printed seconds are below 60.** Half even rounding; the reader of C92.
- **C158 Remaining time.** Field arithmetic.
- **C159 Spectral lines are functions of the distance.** _err overwrites freq: refutation; positive statement in the number of the point.
- **C160 Spectral fit is the discrete Fourier transform.** Discrete orthogonality of sine and cosine by telescoping sums.
- **C161 Spectral lines are closed.** Induction over the modes.
- **C162 Outliers.** Index arithmetic over the loop.
- **C163 Smoothing changes nothing else.** Induction over the runs; rollup (C89) and slices have one common description.
- **C164 Smoothed runs join the line.** Algebra of the cubic.
- **C165 What the smoothing minimises.** Derivatives of the cubic over the reals.
- **C166 Lines without corners stay.** Evaluation of the loop.
- **C167 smooth returns data or None.** plt is unbound: refutation by evaluation; lengths by induction.
- **C168 Runs do not overlap.** Refutation by evaluation; positive for outliers away from the start.
- **C169 Assertions of smooth hold.** C88, C162 and an invariant of the loop.
- **C170 Plots without matplotlib.** Evaluation: refutation for all arguments.
- **C171 Poincare plot.** C72 and the structure of the plot.
- **C172 Clicks in the Poincare plot.** Shapes from C68; refutation for all other clicks.
- **C173 3D plot.** C68, arithmetic of linspace and remainder.
- **C174 Streamlines and surfaces for the grids of zoidberg.** The attributes of Grid do not contain the ones that are used: refutation.
- **C175 Marks of boundary points.** C47 for structured grids; refutation for rectangular ones.
- **C176 Map plots for all slices.** C19, C21; refutation at the ends of grids that are not periodic.
- **C177 Surfaces.** C68 and index arithmetic.
- **C178 Web tracer: positions.** Coordinates by trigonometry; refutation for y values on both sides of the first one.
- **C179 Web tracer: all values are set.** Two memory contents give the same result; refutation for missing lines.
- **C180 Magnetic axis of W7X.** arctan of tan; refutation: arctan of y/x confuses the two sides.
- **C181 Plasma field of W7X.** Refutation: the argument is not used.
- **C182 W7X field at the points of its grid.** Remainder of a multiple of the period.
- **C183 W7X_VMEC can be constructed.** Refutation: attributes are used that are never set.
- **C184 Smoothed field.** argmin picks the interval; refutation: Bxfunc has no return, Bzfunc is not overridden.
- **C185 VMEC field.** Remainder of a multiple of the period; refutation for one angle.
- **C186 Pressure of GEQDSK.** Clamping.
- **C187 VTK output of a grid file.** Evaluation; refutations for the maps and the x coordinates.
- **C188 VTK output of a field.** Refutation: attributes that no field has.
- **C189 The base class is a uniform field.** Evaluation.
- **C190 Iterations of the elliptic solver.** Induction on the number of passes.
- **C191 Cost of a spectral line.** Sums of squares.
- **C192 Curvature uses the field at the grid points.** Find which arguments the field is called with.
- **C193 Curvature components.** Linear algebra of the change of coordinates.
- **C194 Covariant angular component.** Compare with the metric that is used.
- **C195 The curvature is a curl.** Mixed derivatives commute.
- **C196 Curvature is invariant under a turn of z.** Compare the derivative at the cut.
- **C197 smooth_metric runs and smooths what it says.** Follow the keys that are read and written.
- **C198 Smoothed metrics are inverse to each other.** One point that is smoothed.
- **C199 Lines from get_lines.** Follow the sorted index.
- **C200 rotating_ellipse makes a grid.** Case distinction on the options.
- **C201 Alignment options of rotating_ellipse.** Case distinction on the options.
- **C202 return_iota.** Follow the value.
- **C203 What calc_iota can return.** Distance of two strict maxima of order 10.
- **C204 calc_iota finds the rotational transform.** Maxima of a sampled cosine.
- **C205 Maps fit the operators.** Compose the theorems on make_maps with those on weights.py.
- **C206 Operators do not depend on nslice.** Follow which slices have sub-sample maps.
- **C207 Operators evaluate at the end of the field line.** Compose C32, C33 and C13.
- **C208 The slab.** Compute the maps in closed form, then the row.
- **C209 Maps can be given operators.** Compose C205 with the theorems on modify_maps.
- **C210 Boundary legs agree with the maps of make_maps.** Compose the exact condition C17_iff with the samples make_maps takes.
- **C211 Partial boundaries keep inner maps.** Compose C33 (which slices have sub-samples) with modify_maps.
- **C212 No slices, no operators.** Follow the keys.
- **C213 Sfunc is an approximate surface function.** Exact derivatives of Sfunc by HasDerivAt; separate the orders in A.
- **C214 Interrupts end the retry loops.** Exceptions with and without interrupts; induction over the attempts.
- **C215 Progress as a context manager.** Unfold.
- **C216 Direction of the web tracer.** The result does not depend on what the service does for configurations in the wrong direction.
- **C217 The web tracer leaves the configuration alone.** State of the object explicit.
- **C218 DAGP files can be read back.** Compose the theorems on fixup and fixup2 with the dictionary.
- **C219 Command line of stencil_dagp_fv.** Induction over the removal loop.
- **C220 Grid of the screwpinch example.** Compose C123 with the ODE of the field lines.
- **C221 Planes of the example grids.** Periodic lookup (C19) with linspace; compose with make_maps and trace_poincare.
- **C222 J times dy approaches the flux tube volume.** Error of the trapezoidal rule; the sum over the sub-slices.
- **C223 field line lengths approach the arc length.** Inscribed polygons of a C2 curve.
- **C224 Command line of rotating_ellipse.** Case distinction over the flags.
- **C225 c4 is of fourth order everywhere.** Taylor's theorem with the Lagrange remainder at each stencil.
- **C226 c2 is of second order everywhere.** Taylor's theorem; leading term of the error at the ends.
- **C227 c2 and c4 do not depend on the type of the samples.** np.empty_like keeps the type: compare with truncation.
- **C228 line_from_points finds a line again from its points.** Induction along nearest-neighbour tours; orientation by the area.
- **C229 two_opt leaves no pair of edges to exchange.** The last pass of two_opt tried every exchange and improved none; translate indices to edges.
- **C230 line_from_points_fast finds a line again from its points.** The order by angle about the mean is the order along star-shaped lines.
- **C231 Lines from points do not cross themselves.** Two crossing edges can be exchanged for two shorter ones (triangle inequality), so 2-optimal lines do not cross themselves.
- **C232 The parallel operators are of third order.** Rows are Catmull-Rom interpolation (C13); Taylor's theorem with remainder for the weights.
- **C233 findIndex inverts getCoordinate.** Newton-Kantorovich type argument for the under-relaxed iteration: residuals shrink by 13/18 in every pass; then bound the distance of indices by that of their coordinates.
- **C234 Cell volumes of a ring add up.** The trapezoidal rule is exact for constants, so J = R; the midpoint rule is exact for R; the sum of dy telescopes.
- **C235 Alignment of the lines in grid_elliptic.** np.roll keeps the area, argmin over all rolls is a minimum over all starts; a periodic spline through rolled values is the shifted spline.
- **C236 Elliptic grids follow a movement of the lines.** The coefficients scale by the square of the factor, the update is an affine combination; closestPoint compares distances; splines are linear.
- **C237 Maps repeat with the periods of the machine.** getPoloidalGrid at i+p is that at i shifted; field lines, indices and lengths only depend on differences of y.
- **C238 The plane where the numbering starts.** Plane i of the renumbered grid is plane i+p of the old one, with the same y up to the choice of period.
- **C239 Maps in the mirror.** Offsets change sign; the samples of the mirrored line are those of the line in the opposite order; the length of a path does not depend on its direction.
- **C240 The direction of the field does not depend on its strength.** R Bx/By is a quotient; the threshold 1e-8 is absolute.
- **C241 Profiles inside and outside the plasma of a GEQDSK file.** psinorm at a node is the file's; outside is the crossing test of C22-C24.
- **C242 GEQDSK files can be read.** Go through __init__; the limiter is tested for being empty, the plasma boundary is not.
- **C243 FieldTracerReversible returns to where it came from, in all smooth fields.** The Newton iteration with finite differences is a contraction; what it returns satisfies the trapezoidal relation up to 3 k sqrt(rtol); the relation is symmetric and stable.
- **C244 FieldTracerReversible is of second order.** The exact lines satisfy the trapezoidal relation up to 5/12 M h^3; stability as in C243.
- **C245 Surfaces of the straight stellarator.** The rate of change along the line, coil by coil; the turning of the coils gives the second term.
- **C246 The straight stellarator confines field lines near its axis.** C245, a bound of Afunc near the centre, and continuity.
- **C247 Symmetries of the coil fields.** The components under the turn and in the mirror, then the lines.
- **C248 The boundary is asked at the y of each slice.** `C248_actual`: the y is that of the farthest slice of the direction. `C248_own_partial`: right for one slice in each direction and for boundaries that do not depend on y; `C248_fails` for every larger number of slices.
- **C249 Indices that are whole up to rounding.** `C249_iff`: true exactly if eps = 0, or eps > 0 and j >= 0, or eps < 0, j < 0 and j is no multiple of ny, since int() rounds towards zero and the number of periods is the floor of the index. `C249_fails`, `C249_above_partial`.
- **C250 Sums over z in a slab.** sum of the interpolation along z over one period; the four spline weights add up to one and the sum of a periodic function does not change under shifts, except for cells where the code uses other stencil points
- **C251 The backward operator undoes the forward operator.** at grid points the spline weights are a unit vector; the planes j+1 and back to j use the same poloidal grids, with y moved by a period
- **C252 Exceptions in make_maps.** a second model in which the called functions may raise exceptions; every step of a successful run is a step of the model without exceptions, whatever its functions do elsewhere
- **C253 make_maps works for increasing y coordinates.** field_line_length needs increasing values of y; getPoloidalGrid gives 0 and Ly beyond the ends of grids that are not periodic
- **C254 closestPoint on straight parts of a line.** follow the refinements on a straight part, where positionPolygon moves by 2 pi / n of the distance of the points within a segment and jumps at its end
- **C255 Repeated parallel operators follow field lines.** one application by C207 at whole indices, where only one weight remains; then induction
- **C256 Indices of the maps and positions of the maps agree.** C252 for functions that give markers where the given ones raise exceptions, and C47
- **C257 Parallel derivatives converge.** C207 for the positions, C232 for all z at both ends, Taylor's formula along the field line
- **C258 Parallel operators do not amplify.** the sum of the sizes of the weights of a row; C13 for what a row is
- **C259 Parallel derivatives with a tracer of finite accuracy.** C257 with the position replaced by a nearby one; Lipschitz bound of the function
- **C260 make_maps traces from the grid points and leaves the grid unchanged.** make_maps with the grid as a state of the loops (Model/MakeMapsInPlace.lean); induction over the planes
- **C261 EMC3 tracer searches all zones.** searchCells and nearNode by induction over the zones; argmin
- **C262 The factor B0/Bpar in J is the change of the area of flux tubes.** Liouville's formula for the determinant along the lines, change of variables, Fubini
- **C263 J for fields that are not in cylindrical coordinates.** limit from C222, uniqueness of limits
- **C264 The flux test of MapWriter prints exactly if flux is lost.** Model the maximum and the comparison; prove exactly when it prints; relate the factors to the flux through the cells; refute with a source-free field whose pitch changes along the lines.
- **C265 J and the metric in the same file agree.** Prove the limit of J from the trapezoidal rule; calculate the determinant from the metric with the factors of get_metric; compare.
- **C266 The parallel gradient made of the maps and g_22 is the gradient along the magnetic field.** Chain rule along the field line; the factor in front of the gradient is R B/By, the root of g_22 is its modulus; use C257 for the difference quotient.
- **C267 Slices do not depend on the type of the y coordinates.** Model the loop with the integer part of the sum; show that the array stays one of integers.
- **C268 smooth does not depend on the type of the coordinates.** Model smooth with what storing does to a number as a parameter; invariant: all stored numbers are integers.
- **C269 Second parallel derivatives converge.** Rows of C257; Taylor's formula of degree three along the field line; at the edge, the data of the refutation of C257.
- **C270 fixup of the convergence tests keeps the metric a metric.** A pass is a convex combination of a cell and its four neighbours; the second value of fac is never taken.
- **C271 fixup of the convergence tests writes inverse tensors.** The inverse of a triangular matrix; compare the products with the unit matrix.
- **C272 Angles of the convergence test.** Closed form of both.
- **C273 Order of convergence found by do_tests.** Logarithms of the bounds.
- **C274 Volume from cross sections.** Sum by parts over the cyclic index; telescoping sum of the angles.
- **C275 The volume test for the Dommaschk field detects errors that grow.** Closed form of the least squares slope of three equally spaced points.
- **C276 The volume test for slabs detects errors that grow.** The least squares slope as a sum over pairs.
- **C277 The discrete Laplacian is symmetric and loses energy.** Summation by parts over the faces; five point coefficients on rectangular grids; a grid of nested squares as a counterexample.
- **C278 A step of diffusion makes no new extremes.** The eight weights of the neighbours; fields that are one in a single cell.
- **C279 The test of c2 notices a wrong value at an end.** The slices as parts of a list; bounds of the sine and of sums of cosines for the two grids of the test.
- **C280 Length of a straight field line.** Sums of distances; the triangle inequality with equality; for refine=2 the arc of a quarter of a turn.
- **C281 modify_maps leaves the arrays of the caller as they are.** A memory with addresses; frame theorem for all objects; exact conditions for the arrays changed in place.
- **C282 The polygon test notices whether smooth changed the points.** Model of the test; exact condition for passing; refutation for every polygon.
- **C283 distance along a circle is the length of the arc.** Trapezoidal rule of the speed; triangle inequality; chord lengths.
- **C284 smooth on a circle changes all points or none.** Chords of the circle; cosine is antitone.
- **C285 find_outliers compares the angle at the point with the limit.** Express the code by the directions before and after the middle point; exact relation for equal lengths; refutation for all limits.
- **C286 Maps of a slab on a rectangular grid.** Props/TestSlab.lean: tracing along a slab is exact, findIndex of a rectangular grid is linear
- **C287 Points of the grids of the convergence tests.** Model/MmsGrid.lean, Props/MmsGrid.lean: each change of the angle is increasing with slope between 1/5 and 9/5 and keeps the full turn
- **C288 Names of the grids of the convergence tests.** Props/MmsNames.lean: the parts of the name are separated by underscores
- **C289 Files of results of the convergence tests.** Props/MmsNames.lean: the name of the file is made of the first two parts of the name of the first grid
- **C290 Maps of fields along y.** Props/MmsMaps.lean: findIndex at grid points (C110) and the slices of make_maps
- **C291 The tracers in slabs and their tests.** Model/TestTracer.lean, Props/TestTracer.lean: the Euler step is exact, so the first Newton step is zero
- **C292 Cross sections of the exact volume.** Model/VolumeCurve.lean, Props/VolumeCurve.lean: linear interpolation lies on the line through two neighbours; sums over the circle telescope
- **C293 Reference volume of the volume test for slabs.** Model/VolumeSlab.lean, Props/VolumeSlab.lean: the inverse of the mean differs from the mean of the inverses in the second order; the trapezoidal rule; C222
- **C294 Volume of a curvilinear grid in a torus.** Model/GridVolume.lean, Props/GridVolume.lean: C36 and C49 for one cell; the cosines of equal angles add up to zero; geometric sum and bounds of the logarithm
- **C295 The tests of lines.** Model/TestLine.lean, Props/TestLine.lean: rolls are rotations; C228; the shoelace formula changes by the size of the tolerances
- **C296 The tests of grids.** Model/TestGrid.lean, Props/TestGrid.lean: from the values of getPoloidalGrid (C19, C21) and the coordinates of rectangular_grid (C26)
- **C297 The tests of slabs.** Model/TestGrid.lean, Props/TestGrid.lean: the components are linear in x
- **C298 The periodic tests of the finite differences.** Model/TestDiff.lean, Props/TestDiffPer.lean: addition theorems; the sum of the squares of cosines; bounds of the sine up to the seventh order
- **C299 The tests of distances along a line.** Model/TestDistance.lean, Props/TestDistance.lean: C56_spline; the sum telescopes and the speeds at 0 and 2 pi are the same
- **C300 The test of the web tracer notices large steps.** Model/TestWeb.lean, Props/TestWeb.lean: the maximum of the distances; a tracer whose lines all jump
- **C301 The grid of the stellarator test fits within the coils.** Props/TestStell.lean: Cauchy's inequality for the distance from a coil; the coordinates of the outermost points

## Status

`MANIFEST.json` says which theorem proves which property. A property whose
expected form is false of the code has status `partial`: one theorem refutes
the expected form with a concrete witness and a `_partial` theorem proves the
part that holds.



## What is modelled of `make_maps` (zoidberg.py:57-408)

All of it but the progress bar. The tracer, `findIndex`, the boundary, `Byfunc`,
`field_line_length` and `roots_jacobi` are parameters; their exceptions are in
`Model/MakeMapsExc.lean`, a second model whose results are proved to be those of the
first one (C252). `RegularGridInterpolator` is written out (linear, with extrapolation).
Theorems that speak about single field lines assume a tracer that moves every
point on its own (`PointTracer`), which all tracers in fieldtracer.py are meant to
be. Findings besides the listed refutations:

- `outside()` is called with the `y` of the farthest slice for all slices of a
  direction, so C32 is stated for boundaries that do not depend on `y`.
- `refine_parallel_integral=0` never returns (`C36_zero_refinement`).

## What is modelled of `MapWriter` (zoidberg.py:473-755)

`__init__`, `__enter__`, `__exit__`, `add_grid_field`, `add_grid`, `add_field`,
`write_dict`, `_write_metric`, `_write_par_metric`, `add_maps`, `add_dagp`, `_final`
and `write_maps`. The file is a dictionary of variables and one of attributes; every
write is a step and an exception keeps the steps before it. `PoloidalGrid.metric`,
the field and `doit` of the DAGP module are parameters. Findings besides the listed
refutations: the metric of the slices is written in three dimensions also with
`metric2d`; the check of `Ly` against `ny*dy` is made on open grids too; `add_maps`
adds `Rxy` to the dictionary of the caller.

## What is modelled of `upscale` (zoidberg.py:936-1052)

All of it; `map_coordinates` and `griddata` of scipy are parameters (`Interp`). Arrays of
any dimension are a shape and a function on indices, `reshape` goes through the flat
index. What the spline does between the planes is not modelled: the comment in the source
says "linearly", but `map_coordinates` is called with its default order 3. The end points of
the last plane are looked up in plane 0 also when the grid is not periodic.

## What is modelled of poloidal_grid.py

`RectangularPoloidalGrid` and `StructuredPoloidalGrid` completely, except plots and the
`PoloidalGrid` base class. `RectBivariateSpline` is a parameter (any function; exact at the data
points where a theorem says so); the KDTree is a function that gives the index of the nearest
point. `findIndex` is modelled for a list of positions with the common convergence test.

`grid_annulus` and `grid_elliptic` completely, except plots. Parameters: the positions on the
lines, the alignment of the lines (only with `inner_ort=False`), `closestPoint`, the spline, the
number pi, and the Fourier transform in `fft_smooth`. `laplace` and `fft_smooth` are modelled on
their own; `grid_elliptic` takes the angles of the inner points as a parameter. Divisions
by zero, which give nan in numpy and the `RuntimeError` at the end of the loop, give this error at
once.

Found on the way: `getCoordinate` of the rectangular grid tests `dx + dz > 2` (C46); positions on
the boundary rows are reported as outside (C110); the sweep solves another equation than the
documented one (C52); `restrict_factor` may coarsen to one point (C53); `fft_smooth` is off by one
(C113); `maxfac_inner = 1` divides zero by zero (C116).

## What is modelled of rzline.py

`RZline`, `circle`, `shaped_line` and all functions `line_from_points*`, except plots. Splines
(`splrep`, `splev`) are a parameter that takes the order, the knots and the values and may fail; nothing
is assumed about them. `np.argsort` is any function that gives a permutation which sorts the
values, `np.arctan2` any function. The shapes of shapely and alphashape are a parameter, the
position of a point along the boundary.

Found on the way: the remainder in `positionPolygon` is not divided by the angle of one segment
(C55), which also makes `closestPoint` fail near the first point (C118); `equallySpaced` always
makes cubic splines (C120); `line_from_points` raises an `AssertionError` if one of the candidates
has the area zero (C121); `line_from_points_poly` inserts on the wrong edge of clockwise points (C122);
`line_from_points_two_opt` never returns for three points (`C60_triangle`); the lines from the
convex hull and the alpha shape ignore the keyword arguments.

## What is modelled of boundary.py and diff.py

All classes of boundary.py, for one point (the code acts on every point of the arrays on its own), and
`c2`, `c4` and `field_line_length`. The decimal constants of `c4` are the fractions that they round. In
`field_line_length` the interpolation, `sqrt`, `cos` and `sin` are parameters.

Found on the way: a ray through a vertex is counted for both edges, so the centre of a square standing on a
corner is outside and a point below the top of a triangle is inside (C63, C125); edges with a
width below 1e-6 are left out although the ray may cross them (C63, C126); points on the lower side of a
box are outside the polygon (C126); `c2` at the first and last point gives the derivative half a
cell away from it (C65).

## What is modelled of fieldtracer.py

`FieldTracer.follow_field_lines` (arrays as shape and flat data, `odeint` is a parameter that may fail),
`trace_poincare` and `FieldTracerReversible` (the field direction is a parameter, the Newton loop has fuel and
"does not end" is an error; whether arrays are those of the caller, are the same or hold integers is an input).

Found on the way: `FieldTracerReversible` overwrites arrays of the caller (C71), adds both changes to
an array that is given for both coordinates (C130), refuses integers (C131) and does not end if the
equation is singular (C70); `trace_poincare` sorts the array of the caller (C129) and refuses one slice with one
revolution (C72); a 1D x with a z of shape (1,1) is refused (C69).

`CachingFieldTracer` (the hash and the text of a number are parameters, the file is a map from names to
data), `FieldTracerWeb` (a server is a schedule of failures, the pool runs in any number of
parts), `EMC3FieldTracer` (cell search and least squares are parameters) and `FusionSCTracer` (the library is a
parameter). Not modelled: `_PolyMesh.find_cell` and the reading of the EMC3 data.

Found on the way: the cache ignores keyword arguments and the names of the arguments and writes nothing between the arrays (C73,
C132); the web tracer does not retry single requests (C74); the fallback of the EMC3 tracer uses the number of
a node as the number of a cell (C76); after the end of the period the EMC3 tracer goes on with the coordinates of the
start (C134), and 0-dimensional input raises `TypeError`; `FusionSCTracer` drops `rtol` (C77).

## What is modelled of field.py

`Model/Field.lean`: the base class, `field_direction`, the slabs.  `Model/FieldCoils.lean`: `StraightStellarator`, `RotatingEllipse`, `Screwpinch`
(sympy expressions are modelled as real functions; `diff` is the derivative written out, and the theorems show that it is one).
`Model/FieldData.lean`: the parts of `VMEC`, `SmoothedMagneticField`, `GEQDSK`, `W7X_vacuum`, `W7X_vacuum_on_demand`, `W7X_VMEC`, `EMC3` and `FusionSCField`
that are computed here and not by scipy, the web service, xemc3 or fusionsc: these are parameters.
Not modelled: plots, reading of files, the pressure functions.

A field line (`FieldLineOn` in Props/Field.lean) is a curve whose derivative is the value of `field_direction`, which must be defined.

Findings:

- `field_direction` of an empty list raises a `ValueError` (C78).
- The dictionary of attributes belongs to the class, `GEQDSK` writes psi into it (C82).
- `RotatingEllipse` has a divergence (C136), `Screwpinch.Afunc` is not its potential (C138).
- With `iasym` the derivatives in `read_vmec_file` have the wrong signs (C140); `__rolling_average` leaves zeros in the second column and the last but one (C141).
- `SmoothedMagneticField` cannot be used: its limits are never set; `Bxfunc` does not return anything (C143).
- `W7X_vacuum.field_values` uses old files without looking at the configuration (C144); the default z range has a comma instead of a point (C147).
- `W7X_VMEC.field_values` reads `self.nx`, which is never set.

## What is modelled of the Dommaschk potentials

`Model/Dommaschk.lean`: all functions from which the field is made, with `math.gamma` as `Real.Gamma` and sympy's `diff` as `deriv`; the theorems show that the
functions have these derivatives for R > 0.  `Z**-1/factorial(-1)` is zero in sympy, because the factorial is infinite.
`Sfunc` and the functions `U_hat`, `V_hat`, `P_hat` from which it is made are modelled as well (C213).
The field is stated for `Byf(R_0, 0, 0) != 0`; `C152_norm` says when that is so.

## What is modelled of stencil_dagp_fv.py

`Model/Dagp.lean`: the volumes, face vectors and coefficients of `doit`, its checks, the flux part of `test`, `fixup` and `fixup2`.  A poloidal grid is given by its points and by
`getCoordinate` (`DagpPol`); the square root is a parameter, nan (a piece of length zero) is `none`, and `np.linalg.solve` is Cramer's rule.
Not modelled: plots, the functions and the error norms of `test`.

Findings:

- `volume` of the first and the last row is never set (C87).
- On grids with `Lz` the differences over two cells are wrong for three and four points in z (the coefficients of rectangular grids are right nevertheless), and zero for two points and one, where the equations are singular (C155). A linear function of Z jumps where the grid is closed, so its flux through these faces has the wrong sign (C84_end).

## What is modelled of progress.py and spectralline.py

`Model/Progress.lean`: `update_progress` with the text that is written (`format(x, "6.2f")` is a parameter), `format_time`, the estimate of `Progress.update`.
`Model/Spectral.lean`: `_fft`, `_err`, `__init__` and `equallySpaced` of `SpectralLine`; `least_squares` is a parameter, of which C160 assumes that it finds a minimum (`FindsMinimum`).
Not modelled: the clock, the plots.

Findings:

- `_err` overwrites its argument `freq`; so the line is a function of the number of the point, and starts half a turn before the first one (C159).
- `equallySpaced` repeats the first point at the end, which `RZline` asks callers not to do (C94); without modes it raises a `TypeError`.
- `format_time` can print `60s` (C157).

## What is modelled of smooth.py

`Model/Smooth.lean`: `find_outliers`, `generate_points_tosmooth`, `rollup`, `gen_newr` and `smooth`; `np.sqrt` and `least_squares` are parameters.
Of `deb` two columns are modelled.  Not modelled: the plots, the prints; arrays of integers are in `Model/SmoothInt.lean`.

Findings:

- A corner within `bounds` of the last point makes `gen_newr` read behind the end of the array (C90).
- `plt` is imported neither in `gen_newr` nor, without `plot`, in `smooth`: with `plot` every smoothed run raises a `NameError`, without it every failure an `UnboundLocalError` (C167).
- Two runs can contain the same point, once with a negative index (C168).

## What is modelled of plot.py and make_surfaces

`Model/Plot.lean`: the data of `plot_poincare`, `onclick`, `plot_3d_field_line`, `plot_forward_map`, `plot_backward_map`, the attributes that
`plot_streamlines` uses, and `make_surfaces`.  matplotlib is not modelled: a plot is the list of the points given to it.  `griddata` is a parameter.
Not modelled: `AnimateVectorField`, which hands arrays to matplotlib, and the plots inside of other modules.

Findings:

- `warnings.warning` does not exist: without matplotlib the functions raise an `AttributeError` (C170).
- More than six slices in `plot_poincare` raise a `TypeError` (C171); left and right clicks an `IndexError` (C172); more than one starting point in
  `plot_3d_field_line` a `ValueError` (C173).
- `plot_streamlines` and `make_surfaces` use attributes that no `Grid` has (C174).
- The marks of boundary points are right for structured grids only (C175).
- The forward map of the last slice of a grid that is not periodic cannot be plotted, nor the backward map of the first one (C176).

## What is modelled of the rest of field.py, the web tracer and the VTK output

`Model/FieldMore.lean`: `VMEC.__init__`, `SmoothedMagneticField`, `GEQDSK.pressure`, `W7X_vacuum.__init__`, `plasma_field`, `magnetic_axis`, the start of
`W7X_VMEC.__init__`, `FieldTracerWeb._follow_field_lines`, `fci_to_vtk`, the attributes used by `write_Bfield_to_vtk`.  The web services, `griddata`,
`RegularGridInterpolator` and the VTK library are parameters; where a theorem needs an exact interpolation it is a hypothesis, for which there is an instance.

Findings:

- The web tracer takes the direction from the first step for all steps (C178); lines missing in the answer leave uninitialised values (C179).
- `magnetic_axis` uses `arctan(y/x)`: the opposite side of the torus is accepted, and there is no result for negative angles and angles above 93 degrees (C180).
- `plasma_field` ignores `wout_file` (C181).
- `W7X_VMEC` cannot be constructed: `self.nx` is never set (C183).
- `SmoothedMagneticField.Bxfunc` has no `return`; `Bzfunc` is zero (C184).
- A VMEC file without toroidal modes gives one angle, and the field is the fill value everywhere else (C185).
- `fci_to_vtk` reads `bx.shape` before it tests for a missing `bx`, and its x coordinates include the end point (C187).
- `write_Bfield_to_vtk` uses attributes that no field has (C188).

## The examples package (C192-C204)

`Model/Examples.lean` models `zoidberg/examples/common.py` and `rotating_ellipse.py`.

* Parameters: `boututils.calculus.deriv` (any function on lists; theorems assume of it what they need, in words such as "linear" and
  "exact for straight lines"), `scipy.signal.savgol_filter`, `odeint` behind `follow_field_lines`, the grid's metric. `argrelextrema` with
  `mode="clip"` is modelled by its definition (`relMaxima`).
* Files: a dictionary from names to arrays, read and written by key.
* Findings: the field is evaluated at `(R, y, Z)` in `calc_curvilinear_curvature` though its arguments are `(x, z, phi)` (C192); `G_y` lacks a factor `R` (C194);
  the derivative in z is not periodic (C196); `np.int` (C197); `bxcv*` smoothed but not written (C197); smoothing `g11` and `g_11` separately breaks
  their being inverse (C198); `get_lines` sorts the slices (C199); `rotating_ellipse` with neither grid kind fails (C200); outer alignment hangs on the
  inner one (C201); `return_iota` returns `None` (C202); `calc_iota` loses every other maximum in case of ties, and the sign (C204).

## From the maps to the operators (C205-C208)

`Model/EndToEnd.lean` converts the dictionary of the model of `make_maps` to the form that the model of `weights.py` reads: the arrays are
the same, and get the shapes that `make_maps` allocates. The theorems in `Props/EndToEnd.lean` compose the theorems on both models. They
assume of the tracer that it returns one position for each requested y (`FollowOk`), and for C207, C208 that it moves every point on its own
(`PointTracer`), for C208 along the exact field lines of the slab (`odeint` is not modelled).

### make_maps followed by modify_maps (C209-C212)

`Props/EndToEndModify.lean` composes the model of `make_maps` with the model of
`modify_maps`; it adds no model definitions. `modify_maps` accepts what `make_maps`
returns for every `nslice >= 1` (C209) and raises `KeyError` for `nslice = 0` (C212).
Two expectations fail: with an even number of samples per dimension the centre of a
cell is not one of the samples, so boundary legs and centre maps can disagree (C210);
with `nslice >= 2` the sub-sample maps of the adjacent planes are zero (see C33), so
with partial boundaries every adjacent centre map is overwritten by -1 (C211).
C14 and C17 now have exact conditions (`C14_single_iff`, `C17_iff`).

### Sfunc, interrupts, context managers, DAGP files and example scripts (C213-C221)

`Model/Dommaschk.lean` has `Sfunc` now. `Model/Service.lean` has the retry loops with
interrupts (`Raised`), the construction of `FieldTracerWeb` with the configuration object
of the caller as explicit state, and `Progress` as a context manager. `Model/DagpIO.lean`
has `write`, `load` and the command line of `stencil_dagp_fv.py`. `Model/Examples.lean`
has the parts of `screwpinch.py` and of two scripts in `/repo/examples` from which grids are made.

Findings: `Sfunc` is not a surface function to first order for axisymmetric modes (C213);
`W7X_vacuum._calc_chunk` swallows control-C although its comment says otherwise (C214);
`Progress` reports 100 % for a body that failed (C215); `FieldTracerWeb` overwrites
`inverseField` of the configuration it is given (C217); a second `-p` is taken for a
file (C219); the scripts `straight-stellarator-curvilinear.py` and `rotating-ellipse.py`
make periodic grids whose first and last plane coincide (C221).

### Limits of the parallel integrals (C222, C223), command line (C224)

`Props/Volume.lean` and `Props/ArcLength.lean` take `refine_parallel_integral` to infinity.
J*dy converges to the volume of the flux tube exactly if the planes on both sides are equally
distant (or both half means agree), because the mean over both halves is multiplied by the mean
spacing. The length of the line converges to the arc length unless the spline for the angle turns back,
which happens with three points and a ratio of the spacings above three.

### Orders of the differences (C225-C227), reconstruction of lines (C228)

`Props/DiffOrder.lean` proves for all smooth functions what `test_diff.py` measures for sine and
cosine. `c2` is only of first order at the ends, with the exact leading term; the test does not see it,
since the second derivative of the sine vanishes at 0 (its last slice, `slice(-1)`, is all points but the last).
`Model/Diff.lean` has `c2` and `c4` for arrays of integers as well.
`Props/Reconstruct.lean` proves `test_line_from_points` for all permutations of lines with enough points,
and gives a shaped line with four points that is not found again.

### Lines from points (C229-C231), order of the parallel operators (C232)

`Props/TwoOptLocal.lean` and `Props/TwoOptCross.lean` prove what `line_from_points` guarantees with `opt=0`. `two_opt`
(rzline.py:498-524) stops its outer loop at `len(route) - 2`, so one of the exchanges is never tried; hence the line can cross itself,
but at most once. `Props/FastLine.lean` has the other algorithm, which finds every ellipse again.
`Props/WeightsOrder.lean` derives third order of the parallel operators from C13. At the edges in x the
weights of points outside are added to the last point inside, which leaves first order.

### Convergence of findIndex on curved grids (C233)

`Props/Newton.lean` proves that the under-relaxed Newton iteration of `StructuredPoloidalGrid.findIndex` (poloidal_grid.py:391-489)
converges for all grids that satisfy the hypotheses `StrPol.Tame` (derivative with bounded inverse and bounded second derivative near
the start) and finds the index of which the coordinates were given. The interpolating splines are parameters (`StrPol`), the bounds are
hypotheses about them; the example is a grid that is not linear. Indices nearer than half a cell to the edges in x are never found.

### Volume of a ring (C234)

`Props/TorusVolume.lean` sums `J dx dy dz` of the whole grid, `J` from the model of `make_maps`, the spacings from that of `Grid.metric`,
for circular field lines on rectangular poloidal grids. The volume of the ring is a triple integral.

### The lines in grid_elliptic (C235, C236)

`Model/EllLines.lean` has the alignment, the inner angles with `closestPoint`, and `grid_elliptic` for `RZline` arguments; it uses `gridElliptic`
of `Model/GridGen.lean` with the environment filled in. Splines stay parameters: C235 assumes of the periodic splines that rolled
values give the shifted spline, C236 that both kinds of splines are linear and exact for constants. `env4` in `Props/EllAlign.lean` is an
environment with the true linear and cubic periodic splines through four points, which has these properties and is used for the
counterexamples. Findings: the alignment drops `spline_order` and `smooth` of the lines, and turns clockwise lines round after the roll.

### Symmetries of make_maps (C237-C240)

`Props/MapSymmetry.lean` compares two calls of `makeMaps` whose planes and fields correspond to each other under `y -> s + e y`, `e = 1` or `-1`
(`Same`), and shows that all entries of the corresponding planes agree (`PlanesAgree`). C237 (periods), C238 (renumbering) and C239 (mirror) are
the cases. The tracer stays a parameter: it has to return the points of a flow. `C239_lengths` shows for `field_line_length` what the
theorems ask of `lineLength`.

### GEQDSK equilibria (C241, C242)

`Model/Geqdsk.lean` models `GEQDSK.__init__` (field.py:1222-1326). The file as read by freeqdsk (`GFile`) and the two scipy interpolations
(`GSplines`) are parameters; the theorems ask of the interpolations only that they reproduce their data (`GSplines.Exact`). The file reader itself
is not modelled.

### FieldTracerReversible in general fields (C243, C244)

`Props/ReversibleLip.lean`, `ReversibleBack.lean` and `ReversibleOrder.lean`. The only assumptions about the field are a Lipschitz constant and, for C244, three
bounded derivatives of the lines. The code compares the square of the last change with `rtol`, so its tolerance is `sqrt(rtol)`, which is
1e-4 with the default; the bounds show it. The model stops the iteration after `fuel` rounds; the theorems show that there is a number of rounds after which
the result no longer depends on it.

### Surfaces and symmetries of the coil fields (C245-C247)

`Props/StellSurf.lean` and `StellSymmetry.lean`. Field lines are differentiable curves whose derivative is what `field_direction` returns (`FieldLineOn`), in real
arithmetic. The helical flux of C245 exists because the four coils turn rigidly; C246 follows from it with a bound of `Afunc`.

### Exact conditions

`Props/Exact.lean` and `Props/BoundaryConvex.lean` (`C126_iff`) say for properties that are false in general exactly for which inputs they hold
(`C39_iff`, `C102_iff`, `C108_iff`, `C120_iff`, `C121_iff`, `C126_iff`, `C129_iff`, `C131_iff`, `C138_iff`).

`assignCellSpaceNumbers` now includes the IndexError for more guard cells than rows (`nx < MXG`): the loop over the
inner guard cells then writes beyond the array.

`Props/SlabSums.lean` decides when the operators of a slab conserve sums over z, and `Props/InverseMaps.lean` shows
that the forward and backward operators undo each other where field lines connect grid points.

`Props/MakeMapsExc.lean` (C252, C253) treats the exceptions of the functions that `make_maps` calls.  The spline in
`field_line_length` is taken to raise a `ValueError` exactly if the values of y do not increase or are less than two, as scipy's
`CubicSpline` does.

`Props/ClosestStraight.lean` (C254) follows the refinements of `closestPoint` on straight parts of a line: because of the missing division in
`positionPolygon` (C55) they end at the end of the segment whatever the point is.  `C115_numbers` (`Props/LapNumbers.lean`), `C83_doit` and
`C86_iff` were added after mutations of the constants involved survived.

`Props/Orbits.lean` (C255) applies the operators of C207 repeatedly.  `Model/PolMaps.lean` gives the two kinds of poloidal grids the interface that
`make_maps` uses, with the exceptions of `findIndex`; `Props/MapsConsistent.lean` (C256) combines C47 and C252.

`Props/Exact3.lean` and `Props/Exact4.lean` give exact conditions (`Cnn_iff`) for further properties that do not hold in full.

`Props/WeightsOrderAny.lean` extends C232 to negative z indices and to the rows next to the edge; `Props/ParallelOrder.lean` (C257) follows a smooth
function through `make_maps` and `weights.py` to its parallel derivative.

`Props/Amplify.lean` (C258) bounds the sizes of the rows of the operators.  `Props/Exact5.lean` gives exact conditions for C27, C77, C141 and C179.

`Props/Exact6.lean` adds C52 and C90; `Props/NearTracer.lean` (C259) allows for a tracer of finite accuracy.

`Model/MakeMapsInPlace.lean` and `Props/InPlace.lean` (C260): `FieldTracerReversible` moves `pol.R`, `pol.Z` in place, so that `makeMaps`, in which tracers are
functions, describes `make_maps` for the other tracers only (`C260_partial`).  With `FieldTracerReversible` the backward maps start from the end points of the
forward maps, planes that share a poloidal grid drift, and the grid is left changed.

`Props/Emc3Search.lean` (C261) and `Props/Tighten2.lean` (C89, C193) were written for mutations that had survived.

`Props/ReversibleMaps.lean` puts C244 and C259 together; `Props/InPlaceSamples.lean` adds the samples of the cells to C260.

`Props/FluxTube.lean` (C262) says what the limit of C222 means: Liouville's formula for the lines of a field without sources, the change of variables in the plane, and
Fubini's theorem.  `Props/JacobianRadius.lean` (C263) compares it with `Rfunc`; make_maps multiplies with `x` for every field other than `Slab`, so `J` is wrong for
`StraightStellarator` (Rfunc None) and `CurvedSlab` (Rfunc constant).  `Props/Exact7.lean` has exact conditions for C71, C82, C100, C147, C178 and C248.

`Props/SavedNames.lean` proves when two sets of arguments of the W7X readers share a file (C144), from the text of the format `{:.2f}` (`fixed2`, rounded to the even
neighbour as for exact halves).  `Props/Tighten3.lean` has theorems for mutations that survived, among them C72_lines, from the starting points of `trace_poincare` to its result.
`Props/Exact8.lean` has exact conditions for C33, C55, C76, C84, C187, C217, C219 and C223, and shows that the factor of C258 is reached.
`Props/Tighten4.lean` has those for C73 (the first ten characters of the digest) and C92 (times below zero).
`Props/FluxCheck.lean` models the flux test of `_write_par_metric` (zoidberg.py:690-693, `fluxCheck`) and refutes C264: the code multiplies the area of a cell with the strength of the
field, while the flux through the cell is the area times the toroidal component.  The two agree only if the pitch is the same at both ends of a line.

`Props/JacobianMetric.lean` compares two results in the same file (C265): `J` of `make_maps` in the limit of close planes (from C263) and the determinant of the metric of
`get_metric`.  `Props/Exact9.lean` has exact conditions for C34, C70, C87, C94, C140 and C180.

`Props/GeqdskFile.lean` states C139 for the field that the constructor makes from a file.  `Props/Exact10.lean` has C196 away from the cut and the exact condition for C199.

`Props/GradPar.lean` puts C257 and the metric together (C266): the quotient of the difference of the two operators and the root of `g_22` is the gradient along the field, up to
the sign of `By`.  `Props/Retry.lean` has the exact condition for C95.

`Model/ParMetricInt.lean` and `Model/SmoothInt.lean` model two functions for arrays of integers, in which numpy stores the integer parts: the y coordinates of the parallel slices
(C267, `Props/ParInt.lean`) and `smooth` (C268, `Props/SmoothInt.lean`).  Findings: a period slightly below an integer raises an AssertionError for integer planes only; corners of
lines of integers may stay as they are.

`Props/ParallelSecond.lean` (C269) is the same as C257 for the second derivative along the field line.  The error of the interpolation is divided by the square of the distance of the
planes, so that refining only the planes makes the result worse.

More exact conditions: `Props/BoundaryVertex.lean` (C63, C125: rays through vertices), `Props/GeqdskVertex.lean` (C241), `Props/LaplaceEqual.lean` (C116), `Props/PolyClockwise.lean`
(C122), `Props/RunsOverlap.lean` (C168, C175) `Props/DommaschkExact.lean` (C213)
and `Props/TwoOptExact.lean` (C229).  Each replaces "refuted by an example" by an equivalence that holds for all inputs of the model.

### The convergence tests (C270-C273)

`Model/Mms.lean` models `/repo/test/mms`: `fixup` and the angles of `test` of `mms-fci.py`, and what `do_tests` of `mms_helper.py` makes of the errors.  The operators that are tested there are
those of BOUT++ and not modelled.  `Props/MmsFix.lean` (C270, C271), `Props/MmsOrder.lean` (C272, C273).  `fixup` reads the metric as a full matrix, but the files have one name for each
pair of components; the matrix that it smooths and inverts is triangular.

### The volume tests (C274-C276)

`Model/Volume.lean` models what `/repo/zoidberg/test_volume_dommaschk.py` and `/repo/zoidberg/test_volume_slab.py` compute from cross sections and errors.  `area` and `centroid` of shapely are
the usual sums over the edges, for polygons with an area; `np.polyfit` is the straight line with the least squares.  The grids of these tests are those of the other models.
`Props/VolumeTorus.lean` (C274), `Props/VolumeOrder.lean` (C275, C276).

### Energy and extremes of the finite volume operator (C277, C278)

`Props/DagpEnergy.lean` uses the model of `stencil_dagp_fv.py` (`Model/Dagp.lean`).  The nested squares `exDiamonds` are a grid with bent faces, turning counter-clockwise, for which every number
is rational; the coefficients do not depend on the square root (`coefX_sqrt`).

### The tests of the finite differences (C279)

`Model/TestDiff.lean` models `/repo/zoidberg/test_diff.py` up to the test of `c4`; the differences of `c2` and `c4` are those of `Model/Diff.lean`.  `Props/TestDiff.lean` (C279).

`Props/ClosestMiddle.lean` completes C254 beside straight parts (before, at and after the points); `Props/DagpSym.lean` has the exact condition of symmetry for C277.

`Props/StraightLength.lean` (C280): the length of straight field lines with `Model/Diff.lean`.

### `modify_maps` with addresses (C18, C281)

`Model/ModifyMapsMem.lean` is `modify_maps` once more, for a memory in which dictionaries hold
addresses of arrays.  `C18_content` proves that it has the same results as `Model/Weights.lean` if no
two names of the dictionary share an array.  Trusted there: `calculate_parallel_map_operators` reads
its argument only, and all arrays it returns are new; the four arrays of one direction are different
objects.  C281 is false: the marks and the filter are written into the arrays of the caller, also if
the call raises later on.

### `smooth` on circles and its tests (C282, C284, C285)

`Model/TestSmooth.lean` is `test_smooth.py`; `np.interp` with a period is written as linear
interpolation between evenly spaced corners.  `Props/SmoothCircle.lean` describes the criterion of
`find_outliers` by the directions before and after the middle point: it is the cosine of *half* the
angle by which the line turns if the distances are equal, while the documentation speaks of the angle
itself (C285).  `Props/CircleDistance.lean` is the length of a circle (C283).

### The maps of slabs (C286)

`Model/TestSlab.lean` models the assertions of `test_make_maps_slab`; `Props/TestSlab.lean` proves the maps of a slab on a rectangular grid and the exact condition for the test.
`Props/DagpGrow.lean` has a grid of convex cells on which the energy of C277 grows; the stencils at some of its faces are turned the other way.

### The grids of the convergence tests (C287-C290)

`Model/MmsGrid.lean` models `gen_name`, the poloidal grids of `gen_grid`, the main programs and the files of results of `do_tests`.  Findings: `gen_grid` of four of the five modules uses
the variable `args` of the module, so that it fails if it is called from elsewhere (C288); the entries `const1` and `const2` of `radial_grid` have the same file of results (C289).
`make_maps` and `write_maps` are taken to succeed there; the maps are the subject of C290.
C292 is false for angles before the first and after the last point: `interp1d` extrapolates there and does not go round.

The volume of a grid (C294): the rows of a curvilinear grid are points of cells, but the first and the last one lie on the inner and the outer line, so the volume of the grid is too large by about half a cell at both lines (first order). `test_volume_dommaschk.py` expects the first order (`a <= -0.9`); the label of its plot says `nx^-2`.

The tests of distances (C299) and of the web tracer (C300): C300 is false, since `res[:, 1:, :] - res[:, :-1, :]` in `test_traceweb` is the difference of neighbouring lines and not of
neighbouring values of `y`; steps of any length are accepted if all lines make them together.

C301 is false: `rectangular_grid` does not pass on a number of guard cells, so the default of `RectangularPoloidalGrid` (two at each side) holds, `Lx` is the width between them, and the
grid of `test_make_maps_straight_stellarator` (`nx = 5`) is five times as wide as `Lx` and reaches outside the coils.

## Mutation log

`seeded/LOG.jsonl` has one line per wrong program that was tried. A theorem is
listed as failed if it is no longer proved after the edit, either because its own
proof breaks or because it rests on a lemma whose proof breaks.
