{"id": "C01", "title": "Curve list serialization round-trips", "statement": "For any list of NURBS curves whose vectors are non-empty and shorter than 2^31, decoding the bytes produced for the list gives back a list of the same length in the same order, with identical degree, bit-identical control points and knots, and a periodic flag equal to what is_periodic() reported when the curve was written; the flag itself survives only when it agreed with is_periodic().", "quantifier": "all lists of curves, all degrees (any 32-bit int), all bit patterns of doubles, all lengths below 2^31", "why_tests_cant": "The space of curve lists is unbounded and every length prefix, NaN payload and nesting depth has to round-trip; tests sample a few curves.", "anchors": ["cmmcore/serialization.h: serializeNURBSCurves", "cmmcore/serialization.h: deserializeNURBSCurves", "cmmcore/serialization.h: serializeNURBSCurve", "cmmcore/serialization.h: deserializeNURBSCurve"]}
{"id": "C02", "title": "Decoders consume exactly what encoders wrote", "statement": "Each primitive and composite decoder, run on an encoded value followed by any other bytes, returns the value and leaves the read position exactly at the first of the other bytes, so encodings can be concatenated.", "quantifier": "all values of int, double, bool, vec4, vector<double>, vector<vec4>, curve; all trailing byte strings", "why_tests_cant": "Concatenation behaviour is a statement about every suffix, not about isolated buffers.", "anchors": ["cmmcore/serialization.h: serializeInt/deserializeInt", "cmmcore/serialization.h: serializeDouble/deserializeDouble", "cmmcore/serialization.h: serializeBool/deserializeBool", "cmmcore/serialization.h: serializeVectorDouble/deserializeVectorDouble", "cmmcore/serialization.h: serializeVectorVec4/deserializeVectorVec4"]}
{"id": "C03", "title": "The curve encoding is unambiguous", "statement": "Two curve lists that produce the same bytes agree in number of curves, degrees, control points and knots; no encoding is a proper prefix of another.", "quantifier": "all pairs of curve lists with vectors shorter than 2^31", "why_tests_cant": "Injectivity compares every pair of inputs.", "anchors": ["cmmcore/serialization.h: serializeNURBSCurves"]}
{"id": "C04", "title": "Truncated or malformed curve buffers are rejected safely", "statement": "Decoding a buffer that is not a complete encoding is reported as an error rather than reading outside the buffer. (The code has no bounds checks: every proper prefix of every valid encoding reads past the end; a negative stored length is reported by an exception.)", "quantifier": "all byte buffers, in particular all proper prefixes of all encodings", "why_tests_cant": "Every cut position of every possible file matters; a test picks a few.", "anchors": ["cmmcore/serialization.h: deserializeNURBSCurves", "cmmcore/serialization.h: readNURBSCurvesFromFile"]}
{"id": "C05", "title": "KD-tree range search is exact after any history", "statement": "After any sequence of build and insert calls, rangeSearch(lower, upper) returns, each as often as it was stored, exactly the stored points whose three coordinates lie in the closed box; a box with lower > upper on some axis returns nothing.", "quantifier": "all histories of build/insert, all point multisets (ties and duplicates included), all query boxes, all behaviours of nth_element allowed by the standard", "why_tests_cant": "Needs every tree shape reachable through every history and every tie-breaking choice of nth_element.", "anchors": ["cmmcore/kdtree.h: build", "cmmcore/kdtree.h: insert", "cmmcore/kdtree.h: rangeSearch", "cmmcore/kdtree.h: buildKDTree", "cmmcore/kdtree.h: rangeSearchRec"]}
{"id": "C06", "title": "KD-tree nearest neighbour is a true minimiser", "statement": "After any sequence of build and insert calls that leaves the tree non-empty, nearestNeighbor(q) returns a stored point whose squared distance to q is minimal among all stored points.", "quantifier": "all histories, all queries, all nth_element behaviours", "why_tests_cant": "Pruning errors show only for special geometry; every tree and query must be covered.", "anchors": ["cmmcore/kdtree.h: nearestNeighbor", "cmmcore/kdtree.h: nearestNeighborRec"]}
{"id": "C07", "title": "KD-tree size, emptiness and error report follow the history", "statement": "size() equals the number of points in the last build plus the later inserts, empty() holds exactly when that number is zero, nearestNeighbor throws exactly then, and build leaves the caller's vector a permutation of what it was.", "quantifier": "all histories of build/insert", "why_tests_cant": "A statement over unbounded histories.", "anchors": ["cmmcore/kdtree.h: size", "cmmcore/kdtree.h: empty", "cmmcore/kdtree.h: build", "cmmcore/kdtree.h: nearestNeighbor"]}
{"id": "C08", "title": "Box intersection test and intersection box are exact", "statement": "For boxes with min <= max, intersects is true exactly when some point lies in both boxes, is symmetric, and intersection returns true in the same cases with a box that contains exactly the common points; when it returns false the output box is unchanged.", "quantifier": "all pairs of valid boxes over any linear order, all points", "why_tests_cant": "Quantifies over all box pairs and all points of space.", "anchors": ["cmmcore/aabb.h: AABB::intersects", "cmmcore/aabb.h: AABB::intersection"]}
{"id": "C09", "title": "Merge, expand and box-of-points give the tightest enclosing box", "statement": "merge contains both boxes and is contained in every box that does; a box built from points contains each point and is the least such box, independent of point order and duplicates; merging with the default box changes nothing for coordinates in the range of double.", "quantifier": "all boxes, all non-empty point lists and permutations", "why_tests_cant": "Leastness compares with every other box; order independence ranges over all permutations.", "anchors": ["cmmcore/aabb.h: AABB::merge", "cmmcore/aabb.h: AABB::expand", "cmmcore/aabb.h: AABB(const std::vector<vec3>&)", "cmmcore/aabb.h: AABB()"]}
{"id": "C10", "title": "Box volume is non-negative and monotone", "statement": "The volume of a valid box is non-negative, a box contained in another has no larger volume, and the intersection box of two boxes has volume at most that of either.", "quantifier": "all pairs of valid boxes", "why_tests_cant": "Inequality over all real-valued boxes.", "anchors": ["cmmcore/aabb.h: AABB::volume", "cmmcore/aabb.h: AABB::intersection"]}
{"id": "C11", "title": "Both BVH builders index every object exactly once in tight boxes", "statement": "For every object list, top-down and bottom-up building terminate, return null exactly for the empty list, store every given object pointer exactly once (with multiplicity) in the leaves, give each inner node two children and no object, and give each node the tight union of the boxes of the objects below it; the input vector is only permuted.", "quantifier": "all lists of objects, including equal, degenerate and overlapping boxes, all allowed behaviours of std::partition and std::sort", "why_tests_cant": "Termination and completeness must hold for every geometry including all-equal boxes and every tie-breaking order.", "anchors": ["cmmcore/bvh.hpp: split_objects", "cmmcore/bvh.hpp: build_bvh_top_down", "cmmcore/bvh.hpp: build_bvh_bottom_up", "cmmcore/bvh.hpp: build_bvh"]}
{"id": "C12", "title": "BVH box and point queries return exactly the right objects", "statement": "Querying a built tree with a box (or point) returns each object whose box meets the query box exactly once, and nothing else; both builders give the same answer up to order.", "quantifier": "all object lists, all query boxes and points, both builders", "why_tests_cant": "Pruning is only wrong on particular tree/query combinations.", "anchors": ["cmmcore/bvh.hpp: traverse_bvh", "cmmcore/bvh.hpp: contains_point"]}
{"id": "C13", "title": "Iterative BVH-BVH intersection reports exactly the intersecting pairs", "statement": "For two built trees, the iterative tree-tree intersection terminates and reports each pair of objects with intersecting boxes exactly once and no other pair.", "quantifier": "all pairs of object lists", "why_tests_cant": "Traversal of unequal depth trees has cases that few tests reach.", "anchors": ["cmmcore/bvh.hpp: intersect_bvh_iterative"]}
{"id": "C14", "title": "Recursive BVH-BVH intersection reports exactly the pairs with enough overlap", "statement": "For two built trees, intersect_bvh reports each pair of objects whose boxes intersect with overlap volume at least 1e-6 exactly once and no other pair; in particular touching or flat overlaps are not reported.", "quantifier": "all pairs of object lists with valid boxes", "why_tests_cant": "Soundness of pruning by volume needs monotonicity over all geometries.", "anchors": ["cmmcore/bvh.hpp: intersect_bvh"]}
{"id": "C15", "title": "Copying or assembling a BVH keeps its content", "statement": "A copy of a tree answers queries like the original, and setLeft/setRight install the left and right child. (The code violates this: copies lose every object, assignment keeps the old object pointer, setRight overwrites the left child.)", "quantifier": "all trees, all queries", "why_tests_cant": "The claim is about every tree.", "anchors": ["cmmcore/bvh.hpp: BVHNode(const BVHNode&)", "cmmcore/bvh.hpp: BVHNode::operator=", "cmmcore/bvh.hpp: BVHNode::setRight"]}
{"id": "C16", "title": "Row-major addressing is a bijection", "statement": "For a view created from a buffer and a shape, valid index tuples map one-to-one onto the addresses 0..total-1, in lexicographic order, so no access leaves the buffer and no two index tuples alias.", "quantifier": "all shapes of any rank, all index tuples", "why_tests_cant": "All ranks and all shapes.", "anchors": ["cmmcore/memoryview.h: MemoryView(T*, shape)", "cmmcore/memoryview.h: compute_strides", "cmmcore/memoryview.h: operator()"]}
{"id": "C17", "title": "Slicing selects the requested elements and stays in bounds", "statement": "Element k of a range slice with start, stop, step is element start + k*step of the sliced view for every position; integer indices drop the dimension; negative indices count from the end; slices of in-bounds views are in bounds; slices compose. (Fails for negative steps: a start clamped to the length addresses one past the end.)", "quantifier": "all views, all slice tuples, all index tuples", "why_tests_cant": "Interaction of clamping, sign and composition over all ranks.", "anchors": ["cmmcore/memoryview.h: slice", "cmmcore/memoryview.h: Slice"]}
{"id": "C18", "title": "Element access checks its arguments", "statement": "operator() throws exactly when the number of indices differs from the rank or some index is out of range, otherwise it accesses the addressed element; operator[] throws exactly on rank 0 or out of range and v[i](rest) is the same element as v(i, rest).", "quantifier": "all views, all index tuples", "why_tests_cant": "All ranks and indices.", "anchors": ["cmmcore/memoryview.h: operator()", "cmmcore/memoryview.h: operator[]"]}
{"id": "C19", "title": "Reshape keeps the element sequence", "statement": "Reshape throws exactly if the element count changes and otherwise keeps the row-major sequence of elements. (Holds for contiguous views; fails for sliced views.)", "quantifier": "all views and shapes", "why_tests_cant": "All shapes.", "anchors": ["cmmcore/memoryview.h: reshape"]}
{"id": "C20", "title": "size() and copy() describe the whole view", "statement": "size() returns the number of elements and copy() copies all of them. (The code violates this: size() returns 1 whenever it terminates and loops forever on some shapes, so copy() copies one element.)", "quantifier": "all shapes", "why_tests_cant": "All shapes, including non-termination.", "anchors": ["cmmcore/memoryview.h: size", "cmmcore/memoryview.h: copy"]}
{"id": "C21", "title": "View serialization round-trips and rejects bad buffers", "statement": "Deserializing a serialized contiguous view gives a view with the same shape, strides and elements; a buffer for a different element type or any proper prefix of an encoding is rejected by an exception, without reading outside the buffer.", "quantifier": "all contiguous views, all element bytes, all type names, all prefixes", "why_tests_cant": "Every cut position and every shape.", "anchors": ["cmmcore/memoryview.h: serialize", "cmmcore/memoryview.h: deserialize"]}
{"id": "C22", "title": "find_span locates the right knot span", "statement": "For a non-decreasing knot vector and a parameter inside the domain, find_span returns the span index i with degree <= i <= n and U[i] <= u, and u < U[i+1] unless u is at or beyond the last interior boundary, where i = n.", "quantifier": "all degrees, all knot vectors, all parameters", "why_tests_cant": "Repeated knots and end parameters.", "anchors": ["cmmcore/nurbs_utils.h: find_span"]}
{"id": "C23", "title": "Generated knot vectors are valid and clamped", "statement": "For n control points and degree p with n > p, generate_knots yields n+p+1 non-decreasing knots, with p+1 equal knots at each end and simple interior knots; surfaces do likewise in both directions.", "quantifier": "all n > p >= 1", "why_tests_cant": "All sizes.", "anchors": ["cmmcore/nurbs.h: NURBSCurve::generate_knots", "cmmcore/nurbs.h: NURBSSurface::generate_knots_u", "cmmcore/nurbs.h: NURBSSurface::generate_knots_v"]}
{"id": "C24", "title": "Knot insertion edits the knot vector correctly", "statement": "Inserting u r times yields a sorted knot vector of length +r whose multiset is the old one plus r copies of u; find_multiplicity counts exactly the knots within tolerance of u.", "quantifier": "all sorted knot vectors, all u in domain, all r", "why_tests_cant": "All multiplicities and positions.", "anchors": ["cmmcore/nurbs_utils.h: knot_insertion_kv", "cmmcore/nurbs_utils.h: find_multiplicity", "cmmcore/nurbs.h: NURBSCurve::insert_knot"]}
{"id": "C25", "title": "Distinct-knot helpers describe the knot vector", "statement": "uniqueKnots returns the strictly increasing list of distinct values and getKnotMultiplicities counts that add up to the length of the knot vector, in the same order; normalize_knots maps the domain to [0,1] affinely, preserving order and multiplicities.", "quantifier": "all sorted knot vectors", "why_tests_cant": "All multiplicity patterns.", "anchors": ["cmmcore/nurbs_utils.h: uniqueKnots", "cmmcore/nurbs_utils.h: getKnotMultiplicities", "cmmcore/nurbs.h: NURBSCurve::normalize_knots"]}
{"id": "C26", "title": "Basis functions are the B-spline basis", "statement": "On the span returned for u, basis_funs computes the degree+1 non-vanishing Cox-de Boor functions; they are non-negative and sum to one, and no division by zero occurs.", "quantifier": "all degrees, all sorted knot vectors, all u in a non-empty span", "why_tests_cant": "Identity over a continuum of knots and parameters.", "anchors": ["cmmcore/nurbs_utils.h: basis_funs"]}
{"id": "C27", "title": "Curve points stay in the box of their control points", "statement": "A curve point with positive weights is a convex combination of the degree+1 local control points, so it lies in their bounding box; with non-constant weights the curve's own aabb() (computed from x/w) need not contain it.", "quantifier": "all curves with positive weights, all parameters", "why_tests_cant": "Holds pointwise on a continuum.", "anchors": ["cmmcore/nurbs_utils.h: curve_point", "cmmcore/nurbs.h: NURBSCurve::evaluate", "cmmcore/nurbs.h: NURBSCurve::rebuildAABB"]}
{"id": "C28", "title": "Curve evaluation commutes with affine maps and interpolates ends", "statement": "Evaluating after an affine map of the control points equals mapping the evaluated point, and a clamped curve starts at its first and ends at its last control point.", "quantifier": "all curves with positive weights, all affine maps, all parameters", "why_tests_cant": "Continuum of inputs.", "anchors": ["cmmcore/nurbs_utils.h: curve_point"]}
{"id": "C29", "title": "Knot insertion does not move the curve", "statement": "After inserting a knot any number of times (up to degree), the curve evaluates to the same point at every parameter of its domain. (True when all weights are equal; the code violates it for unequal weights because insertion is homogeneous and evaluation is not.)", "quantifier": "all curves, all inserted values, all parameters", "why_tests_cant": "Equality of two functions on a continuum.", "anchors": ["cmmcore/nurbs_utils.h: knot_insertion", "cmmcore/nurbs.h: NURBSCurve::insert_knot"]}
{"id": "C30", "title": "Splitting a curve reproduces it", "statement": "split(t) for t strictly inside the domain returns two curves whose domains meet at t and which evaluate to the original curve on their domain; for t at or outside the ends it throws.", "quantifier": "all curves (equal weights), all t, all parameters", "why_tests_cant": "Continuum of inputs.", "anchors": ["cmmcore/nurbs.h: NURBSCurve::split"]}
{"id": "C31", "title": "Surface points are convex combinations and interpolate corners", "statement": "With positive weights a surface point lies in the box of the projected local control points, and clamped surfaces interpolate their corner control points.", "quantifier": "all surfaces, all parameters", "why_tests_cant": "Continuum.", "anchors": ["cmmcore/nurbs_utils.h: surface_point", "cmmcore/nurbs.h: NURBSSurface::evaluate"]}
{"id": "C32", "title": "Iso-curves lie on the surface", "statement": "extract_isocurve at a parameter in range returns a curve whose evaluation equals the surface at the fixed parameter; out of range it throws. (True for unit weights; the free function in boundary_intersection.h drops the u knot vector for V iso-curves.)", "quantifier": "all surfaces, all parameters in both directions", "why_tests_cant": "Continuum.", "anchors": ["cmmcore/nurbs.h: NURBSSurface::extract_isocurve", "cmmcore/boundary_intersection.h: extract_isocurve"]}
{"id": "C33", "title": "Surface knot insertion and subdivision do not move the surface", "statement": "insert_knot in u or v, split_surface_u/v and subdivide produce surfaces that evaluate to the original surface on their domains.", "quantifier": "all surfaces, all inserted values, all parameters", "why_tests_cant": "Continuum.", "anchors": ["cmmcore/nurbs.h: NURBSSurface::insert_knot", "cmmcore/nurbs.h: NURBSSurface::split_surface_u", "cmmcore/nurbs.h: NURBSSurface::split_surface_v", "cmmcore/nurbs.h: NURBSSurface::subdivide"]}
{"id": "C34", "title": "Periodicity flag and make_periodic are consistent", "statement": "is_periodic holds exactly when the first degree control points equal the last degree ones; make_periodic establishes it and is idempotent in its effect on control points.", "quantifier": "all curves", "why_tests_cant": "All control polygons.", "anchors": ["cmmcore/nurbs.h: NURBSCurve::is_periodic", "cmmcore/nurbs.h: NURBSCurve::make_periodic"]}
{"id": "C35", "title": "2x2 linear algebra is correct", "statement": "inverse throws exactly on zero determinant and otherwise is a two-sided inverse; solve2x2 returns false exactly on zero determinant and otherwise the unique solution; products associate, transpose reverses products, det is multiplicative. (The brace constructor ignores its argument: the resulting matrix is zero.)", "quantifier": "all 2x2 matrices and right-hand sides", "why_tests_cant": "Continuum.", "anchors": ["cmmcore/matrix.h: Matrix2x2", "cmmcore/matrix.h: solve2x2"]}
{"id": "C36", "title": "Dynamic matrices multiply, transpose and invert correctly", "statement": "operator* throws exactly on dimension mismatch and otherwise is the matrix product; transpose is an involution; inverse throws on non-square input and otherwise either throws for a small pivot or returns a matrix B with A*B = B*A = I.", "quantifier": "all sizes and entries", "why_tests_cant": "All sizes; Gauss-Jordan with pivoting is an induction over columns.", "anchors": ["cmmcore/matrix.h: MatrixD"]}
{"id": "C37", "title": "Cholesky solver solves the system it accepts", "statement": "When solveLinearSystem returns true for a symmetric matrix, the output solves H x = b; it returns true exactly for positive definite matrices.", "quantifier": "all sizes N, all symmetric matrices, all right-hand sides", "why_tests_cant": "All sizes and entries.", "anchors": ["cmmcore/newthon2.h: choleskyDecomposition", "cmmcore/newthon2.h: forwardSubstitution", "cmmcore/newthon2.h: backwardSubstitution", "cmmcore/newthon2.h: solveLinearSystem"]}
{"id": "C38", "title": "Newton's method never goes uphill", "statement": "If newtonsMethod returns, the function value at the returned point is at most the value at the start point, within at most maxIter iterations.", "quantifier": "all objective functions, all start points, all tolerances and iteration limits", "why_tests_cant": "All functions and all iteration histories.", "anchors": ["cmmcore/newthon2.h: newtonsMethod", "cmmcore/newthon2.h: lineSearch"]}
{"id": "C39", "title": "Finite-difference derivatives are exact on quadratics and symmetric", "statement": "computeHessian returns a symmetric matrix for every function; on quadratic polynomials gradient and Hessian are exact for every step h != 0.", "quantifier": "all functions / all quadratic forms, all points, all sizes", "why_tests_cant": "Continuum, all dimensions.", "anchors": ["cmmcore/newthon2.h: computeGradient", "cmmcore/newthon2.h: computeHessian"]}
{"id": "C40", "title": "Binomial table", "statement": "binomial_coefficient(n,k) is the binomial coefficient n over k (0 for k > n) for all 0 <= n,k <= 30, and outside this range the call is out of bounds.", "quantifier": "all n, k", "why_tests_cant": "The complete table and its boundary.", "anchors": ["cmmcore/binom.h: binom_coeffs", "cmmcore/binom.h: binomial_coefficient"]}
{"id": "C41", "title": "Bernstein and monomial forms agree", "statement": "Converting a Bezier patch to monomial form preserves the polynomial surface at every parameter, and converting back returns the original control points.", "quantifier": "all degrees up to the table bound, all control nets, all parameters", "why_tests_cant": "Polynomial identity for all degrees.", "anchors": ["cmmcore/monomial.h: bpmat", "cmmcore/monomial.h: Monomial2D", "cmmcore/monomial.h: to_bezier"]}
{"id": "C42", "title": "Monomial partial derivatives and cross products are the analytic ones", "statement": "The partial-derivative coefficient tensor evaluates to the partial derivative, and the cross-product tensor to the cross product of the evaluated vectors, at every parameter.", "quantifier": "all coefficient tensors, all parameters", "why_tests_cant": "Polynomial identities.", "anchors": ["cmmcore/monomial.h: compute_partial_derivative", "cmmcore/monomial.h: cross", "cmmcore/monomial.h: computeNormal"]}
{"id": "C43", "title": "Adaptive Simpson integration", "statement": "integrate terminates within its depth bound for every integrand, the reported error is non-negative, and the result is exact for polynomials of degree at most three for every tolerance and depth; the result is linear where the same nodes are used.", "quantifier": "all integrands, intervals, tolerances, depths", "why_tests_cant": "All functions; recursion of any depth.", "anchors": ["cmmcore/integrate.h: adaptiveSimpson", "cmmcore/integrate.h: integrate"]}
{"id": "C44", "title": "Bounded scalar minimisation respects its contract", "statement": "minimize_scalar_bounded throws exactly when a bound is not finite or the lower bound exceeds the upper one; otherwise every evaluation point and the result lie in the bounds, the reported value is the function value at the reported point and, if the first computed value is a number, the least number seen, and the number of evaluations is reported and at most max(maxiter, 2). A success on a unimodal function is within the documented tolerance of the minimum.", "quantifier": "all functions, bounds, tolerances, iteration limits", "why_tests_cant": "All functions and histories.", "anchors": ["cmmcore/minimize_scalar.h: minimize_scalar_bounded"]}
{"id": "C45", "title": "Closest point on segment and triangle to the origin", "statement": "closestPointOnSegm(a,b) and closestPointOnTriangle(a,b,c) return a point of the segment/triangle whose distance to the origin is minimal.", "quantifier": "all non-degenerate segments and triangles", "why_tests_cant": "Six Voronoi regions over a continuum.", "anchors": ["cmmcore/closest_point.h: closestPointOnSegm(const vec3&, const vec3&)", "cmmcore/closest_point.h: closestPointOnTriangle(const vec3&, const vec3&, const vec3&)"]}
{"id": "C46", "title": "Closest point to an arbitrary point", "statement": "The overloads taking a query point return the closest point of the line, segment or triangle to that point. (True for the line; the code violates it for the segment, whose parameter is compared with 1 without normalisation, and for the triangle, whose result is relative to the query point.)", "quantifier": "all inputs", "why_tests_cant": "Continuum.", "anchors": ["cmmcore/closest_point.h: closestPointOnLine", "cmmcore/closest_point.h: closestPointOnSegm(vec3&, vec3&, vec3&)", "cmmcore/closest_point.h: closestPointOnTriangle(pt,a,b,c)", "cmmcore/vec.h: vectorProjection"]}
{"id": "C47", "title": "Plane construction and intersections", "statement": "A plane through three points contains them; ray, segment and three-plane intersection results lie on the planes and, for segments, inside the segment; planePlaneIntersection returns two points of both planes whenever the planes are not parallel. (The last clause and the origin/normal constructor are violated by the code.)", "quantifier": "all planes, points, directions", "why_tests_cant": "Continuum; case split on the dominant coordinate.", "anchors": ["cmmcore/plane.h: plane_eq_from_pts", "cmmcore/plane.h: planeRayIntersection", "cmmcore/plane.h: planeLineIntersection", "cmmcore/plane.h: planePlaneIntersection", "cmmcore/plane.h: planePlanePlaneIntersection", "cmmcore/plane.h: plane(origin,normal)"]}
{"id": "C48", "title": "Coplanarity test", "statement": "isPtsCoplanar returns true exactly if all points are within eps of the plane of the first three. (The code never looks at the fourth point.)", "quantifier": "all point lists", "why_tests_cant": "All list lengths.", "anchors": ["cmmcore/plane.h: isPtsCoplanar"]}
{"id": "C49", "title": "GJK never reports a separation that does not exist", "statement": "If GJK returns false, the convex hulls of the two point sets are disjoint; the loop runs at most maxIterations times.", "quantifier": "all non-empty point sets, all tolerances, iteration limits", "why_tests_cant": "All geometries and iteration histories.", "anchors": ["cmmcore/gjk.h: GJK", "cmmcore/gjk.h: support", "cmmcore/gjk.h: supportVector", "cmmcore/gjk.h: handleSimplex"]}
{"id": "C50", "title": "2D convex hull", "statement": "convex_hull2d returns input points only; the result is a convex polygon containing every input point.", "quantifier": "all point lists", "why_tests_cant": "All inputs and orders; tolerance and collinearity cases.", "anchors": ["cmmcore/_convexhull/convexhull2d.h: convex_hull2d", "cmmcore/_convexhull/convexhull2d.h: orientation", "cmmcore/_convexhull/convexhull2d.h: PointComparator"]}
{"id": "C51", "title": "Separating-axis verdicts are sound", "statement": "If SAT2D or SAT3D returns true, or polygonRelationship2D returns DISTANCE, the convex hulls of the two sets of points are disjoint; SAT2D throws exactly on empty input; AABBTest true implies disjoint point hulls.", "quantifier": "all polygons and all finite sets of points in space", "why_tests_cant": "Continuum.", "anchors": ["cmmcore/separability.h: SAT2D", "cmmcore/separability.h: AABBTest", "cmmcore/polygon.h: polygonRelationship2D", "cmmcore/separability.h: SAT3D"]}
{"id": "C52", "title": "Polyline assembly uses every segment exactly once", "statement": "assemble_polylines terminates; every input segment contributes exactly one polyline edge, every polyline edge is an input segment (up to the matching tolerance), and polylines are maximal: no unused segment can extend them.", "quantifier": "all segment lists", "why_tests_cant": "All graphs of segments and iteration orders.", "anchors": ["cmmcore/polyline.h: assemble_polylines"]}
{"id": "C53", "title": "Boundary intersection bookkeeping", "statement": "sort_boundary_intersections distributes every point exactly once over sequences of one or two points, pairing each start with a nearest remaining point, with at most one singleton, at the end; duplicate removal keeps one representative of every class of equal points and drops only duplicates; the two surface parameters stored in an intersection point are those of the boundary it came from, and evaluating the surface there gives the boundary curve's point. (The code violates the last clause on the two boundaries with fixed v.)", "quantifier": "all point lists, all surfaces, all answers of the curve-surface intersection", "why_tests_cant": "All lists.", "anchors": ["cmmcore/boundary_intersection.h: sort_boundary_intersections", "cmmcore/boundary_intersection.h: find_boundary_intersections", "cmmcore/boundary_intersection.h: IntersectionPoint"]}
{"id": "C54", "title": "Hash functions agree with equality", "statement": "Values that compare equal have equal hashes, for every key type used in an unordered container.", "quantifier": "all pairs of keys", "why_tests_cant": "All pairs.", "anchors": ["cmmcore/cm_hash.h: PairDoubleHash", "cmmcore/vec.h: Vec2Hash", "cmmcore/vec.h: Vec3Hash", "cmmcore/polygon.h: Normal2Hash", "cmmcore/polyline.h: PointKeyHash"]}
{"id": "C55", "title": "Curve-surface intersection reports only genuine intersections", "statement": "Every intersection reported by csx has parameters inside the domains of the searched curve and surface pieces and the curve and surface points at these parameters are within the tolerance; the search terminates.", "quantifier": "all curves, surfaces, tolerances, outcomes of the inner Newton search", "why_tests_cant": "All inputs and all recursion histories.", "anchors": ["cmmcore/csx.h: NURBSCurveSurfaceIntersector", "cmmcore/csx.h: csx"]}
{"id": "C56", "title": "Curve-curve intersection misses nothing", "statement": "If two curves meet at parameters (s,t), ccx reports a pair whose parameter cell contains (s,t), or that was suppressed as a duplicate of a reported neighbour; every reported pair comes from cells whose boxes meet and are smaller than tol.", "quantifier": "all pairs of curves, all tolerances", "why_tests_cant": "All inputs.", "anchors": ["cmmcore/ccx.h: ccx"]}
{"id": "C57", "title": "STEP export is referentially closed", "statement": "Every entity number used in an exported STEP text is defined exactly once in it.", "quantifier": "all curves and surfaces of any size", "why_tests_cant": "All sizes.", "anchors": ["cmmcore/nurbs.h: NURBSCurve::toSTEP", "cmmcore/nurbs.h: NURBSSurface::toSTEP"]}
{"id": "C58", "title": "Line-line distance", "statement": "For non-parallel lines segmentsDistance returns parameters whose points are the mutually closest points of the two infinite lines.", "quantifier": "all pairs of non-parallel lines", "why_tests_cant": "Continuum.", "anchors": ["cmmcore/numeric_utils.h: segmentsDistance"]}
{"id": "C59", "title": "Parameter improvement step solves the tangent system", "statement": "improve_uv returns true with a solution of one of the 2x2 tangent systems whenever the tangents are independent. (The code violates this: it always returns false.)", "quantifier": "all tangents and displacements", "why_tests_cant": "Continuum.", "anchors": ["cmmcore/ssx.h: ssx_helpers::improve_uv", "cmmcore/matrix.h: Matrix2x2(std::initializer_list)"]}
{"id": "C60", "title": "Lexicographic point order is a strict total order", "statement": "operator< on points is irreflexive, transitive and total, so ordered containers of points behave as sets.", "quantifier": "all points", "why_tests_cant": "All triples.", "anchors": ["cmmcore/gjk.h: operator<"]}
{"id": "C61", "title": "Encoded size is exact", "statement": "The number of bytes written for a curve is 13 plus 32 per control point plus 8 per knot, and a list adds 4 bytes; so the size of a file is known in advance and distinct counts give distinct sizes.", "quantifier": "all curves and lists of curves", "why_tests_cant": "The formula ranges over all lengths.", "anchors": ["cmmcore/serialization.h: serializeNURBSCurve", "cmmcore/serialization.h: serializeNURBSCurves"]}
{"id": "C62", "title": "A default box is recognised by infinity()", "statement": "infinity() returns true for a default constructed (empty) box and false for boxes that were grown. (The code compares a boolean with a large constant, so it never returns true.)", "quantifier": "all boxes", "why_tests_cant": "It is a statement about every box, and shows the function is constant.", "anchors": ["cmmcore/aabb.h: AABB::infinity"]}
{"id": "C63", "title": "Bottom-up trees are balanced", "statement": "A tree built bottom-up over at most 2^k objects has height at most k, so recursion depth of queries is logarithmic in the number of objects.", "quantifier": "all object lists, all k", "why_tests_cant": "Ranges over all sizes and all sort orders of the library.", "anchors": ["cmmcore/bvh.hpp: build_bvh_bottom_up"]}
{"id": "C64", "title": "to_string previews elements of the view", "statement": "The positions printed by to_string are positions of elements of the view, in order. (True for one-dimensional contiguous views; for two-dimensional views the code steps by the row stride and reads past the end of the buffer.)", "quantifier": "all shapes, all preview limits", "why_tests_cant": "Out-of-bounds reads of a preview usually print garbage silently; the claim ranges over all shapes.", "anchors": ["cmmcore/memoryview.h: MemoryView::to_string"]}
{"id": "C65", "title": "begin()/end() iterate over the elements", "statement": "For a contiguous view, the half-open range from begin() to end() visits exactly the view's elements in row-major order. (For sliced views the range visits other elements.)", "quantifier": "all contiguous views of any rank", "why_tests_cant": "It compares two enumerations for every shape.", "anchors": ["cmmcore/memoryview.h: MemoryView::begin", "cmmcore/memoryview.h: MemoryView::end"]}
{"id": "C66", "title": "Normalising knots only reparametrises", "statement": "After normalize_knots the interval is [0, 1], control points and degree are kept, and the curve at the relative position of t between the first and last knot is the point the original curve has at t.", "quantifier": "all curves with a valid knot vector, all weights, all parameters of the domain", "why_tests_cant": "the claim ranges over all knot vectors, degrees and real parameters; sampling cannot exclude a span or basis mismatch at some parameter", "anchors": ["cmmcore/nurbs.h: NURBSCurve::normalize_knots, evaluate"]}
{"id": "C67", "title": "Derivative surfaces", "statement": "get_derivative(direction) throws for a direction other than 0 and 1; otherwise it returns the surface of one degree less in that direction whose control points are the scaled differences of neighbouring control points over the inner knots, and that surface can be evaluated. (The last clause is violated: the returned surface reports size zero, and for equal weights every evaluation divides by zero.)", "quantifier": "all surfaces, both directions, all parameters", "why_tests_cant": "it must hold for every control net, degree and knot vector; a sample cannot exclude one where the net or the bookkeeping is wrong", "anchors": ["cmmcore/nurbs.h: NURBSSurface::get_derivative"]}
{"id": "C68", "title": "Upper limit of an integral", "statement": "find_t1_newton returns NaN only if the integrand is nearly zero at an iterate; when it stops before the iteration limit the result is a Newton step whose residual is below tol times the integrand; for a constant non-zero integrand the result is the exact upper limit.", "quantifier": "all integrands, targets, tolerances, iteration limits", "why_tests_cant": "All functions and iteration histories.", "anchors": ["cmmcore/integrate.h: find_t1_newton"]}
{"id": "C69", "title": "Central projection to the XY plane", "statement": "centerProjectionToXY returns the point where the line through the centre and the point meets the plane z = 0; if both are at the same height the point is returned unchanged; points of the plane are their own projection.", "quantifier": "all centres and points", "why_tests_cant": "Continuum.", "anchors": ["cmmcore/numeric_utils.h: centerProjectionToXY"]}
{"id": "C70", "title": "Coordinate planes", "statement": "For a coordinate plane with orthonormal axes evaluateInv inverts evaluate: the coordinates of an evaluated point are its parameters and height zero, every point is recovered from its coordinates, and distances are kept. The signed distance is the height above the plane. (The last sentence is violated by the code, and the three-point constructor need not produce unit axes.)", "quantifier": "all origins, orthonormal axes, parameters and points", "why_tests_cant": "Continuum.", "anchors": ["cmmcore/plane.h: cplane", "cmmcore/plane.h: cplane::evaluate", "cmmcore/plane.h: cplane::evaluateInv", "cmmcore/plane.h: cplane::signedDistance", "cmmcore/vec.h: vec3::unitize"]}
{"id": "C71", "title": "Quantised keys identify only nearby points", "statement": "Two vectors that Vec2Equal or Vec3Equal identify agree to the documented number of decimal places (15); two points with the same spatial key of the polyline index are within the machine epsilon, and points within the machine epsilon of each other are in the same or in neighbouring cells. (The code violates the first part: quantize multiplies by 15 instead of 10^15, so vectors more than 0.1 apart are one key; and keys are undefined for coordinates above about 5e-7.)", "quantifier": "all pairs of points", "why_tests_cant": "Continuum of points, in particular at cell boundaries.", "anchors": ["cmmcore/cm_hash.h: quantize", "cmmcore/vec.h: Vec3Equal", "cmmcore/polyline.h: PointKey", "cmmcore/polyline.h: find_nearby_endpoints"]}
{"id": "C72", "title": "Exported STEP text describes the shape and is syntactically sound", "statement": "For every curve and surface, the exported instance refers to exactly the control points in order (Cartesian coordinates for surfaces), with degrees, knot runs and weights; the parentheses of every instance are balanced; every EDGE_CURVE joins the end points of the curve it refers to; and product and shape entities refer to entities of the kinds their keywords demand.", "quantifier": "all curves and surfaces whose export succeeds, all control net sizes, all starting entity numbers", "why_tests_cant": "a test exports a few shapes and compares text or loads it in one viewer; it cannot show that the text is right for every net size, degree and knot vector", "anchors": ["cmmcore/nurbs.h: NURBSCurve::toSTEP", "cmmcore/nurbs.h: NURBSSurface::toSTEP", "cmmcore/nurbs.h: writeSTEPFile"]}
{"id": "C73", "title": "Point inversion finds the parameter of the closest point", "statement": "point_inversion_curve and point_inversion_surface return parameters whose point passes one of the stopping tests (small step, small distance, perpendicular difference), or the last of max_iter iterates; in particular the foot point on lines and planes. (The code violates this: it returns the parameters before the step that passed the test, so on every line and plane it returns the start.)", "quantifier": "all points, start parameters, tolerances, iteration limits; all curves and surfaces given by their evaluation functions", "why_tests_cant": "Continuum of inputs; the violation has to be shown for every line and plane.", "anchors": ["cmmcore/point_inversion.h: point_inversion_curve", "cmmcore/point_inversion.h: point_inversion_surface", "cmmcore/point_inversion.h: solve2x2"]}
{"id": "C74", "title": "Curve derivatives are the derivatives of the curve", "statement": "derivative(t) and derivative(t, result, d) return the point and the derivatives of the map t -> evaluate(t), from the right at an interior knot, for every valid curve and every parameter of the domain. (The code violates this: weights are ignored, so it holds for equal weights only; a curve of degree 4 or more throws; and asking for more than degree + 1 entries reads past the end.)", "quantifier": "all valid curves of degree 1 to 8, all parameters, all orders", "why_tests_cant": "Continuum of control points, knots and parameters; a sampled difference quotient does not give the derivative.", "anchors": ["cmmcore/nurbs.h: NURBSCurve::derivative", "cmmcore/nurbs_utils.h: curve_derivs_alg1", "cmmcore/nurbs_utils.h: ders_basis_funs"]}
{"id": "C75", "title": "The derivative curve evaluates to the derivative", "statement": "get_derivative() returns a curve of one degree less over the same interval whose value at every parameter is the derivative of the original there, and agrees with derivative(t). (Violated for weights other than one: the control points are not divided by their weight, so a common weight of 2 halves the derivative.)", "quantifier": "all valid curves and parameters", "why_tests_cant": "Continuum of curves and parameters.", "anchors": ["cmmcore/nurbs.h: NURBSCurve::get_derivative", "cmmcore/nurbs.h: NURBSCurve::derivative"]}
{"id": "C76", "title": "Arc length is the integral of the speed", "statement": "length(t0, t1, tol) integrates the speed of the curve between the parameters: it is never negative for ordered bounds, equals the distance of the ends on a straight segment, is exact on every part with constant speed, does not change under rigid motions, and length_at inverts it on segments. (Violated for curves with different weights, whose derivative is wrong; and curves of degree 4 or more throw.)", "quantifier": "all valid curves, parameter pairs, tolerances, rigid motions", "why_tests_cant": "Continuum of curves, parameters and motions.", "anchors": ["cmmcore/nurbs.h: NURBSCurve::length", "cmmcore/nurbs.h: NURBSCurve::length_at", "cmmcore/integrate.h: integrate"]}
{"id": "C77", "title": "Finite-difference derivatives approximate the derivatives", "statement": "derivative_fdm and derivatives(t, d0, d1, d2) of a curve and derivative_u, derivative_v of a surface differ from the derivatives by 1e-10/6 times the third derivative (1e-10/12 times the fourth for the second derivative) when one knot span covers the two sample points; for degree two they are exact; second_derivative_fdm approximates the second derivative. (The last is violated: second_derivative_fdm returns the first derivative.)", "quantifier": "all valid curves and surfaces with equal weights and degree up to 4, all parameters at least 1e-5 inside a span", "why_tests_cant": "Continuum of shapes and parameters; the error constant is not visible in samples.", "anchors": ["cmmcore/nurbs.h: NURBSCurve::derivative_fdm", "cmmcore/nurbs.h: NURBSCurve::second_derivative_fdm", "cmmcore/nurbs.h: NURBSCurve::derivatives", "cmmcore/nurbs.h: NURBSSurface::derivative_u", "cmmcore/nurbs.h: NURBSSurface::derivative_v"]}
{"id": "C78", "title": "Surface normals are unit and perpendicular to the surface", "statement": "normal(u, v) is perpendicular to both derivative vectors and has length one wherever the derivatives are not parallel. (Violated for short cross products: below the epsilon used by unitize they are returned unscaled.)", "quantifier": "all surfaces and parameters", "why_tests_cant": "Continuum.", "anchors": ["cmmcore/nurbs.h: NURBSSurface::normal", "cmmcore/vec.h: vec3::unitize"]}
{"id": "C79", "title": "Newton's method converges on convex quadratics", "statement": "newtonsMethod started anywhere on a quadratic function whose second-derivative matrix has curvature at least lambda > 0 performs, in every iteration, the regularised Newton step (H + 1e-6 I)(p_new - p) = -grad, so that after n iterations the distance to the minimum is at most (1e-6/(lambda+1e-6))^n times the distance of the start.", "quantifier": "all dimensions, all convex quadratics, all start points, all iteration counts", "why_tests_cant": "Continuum of functions and start points, and a rate claim over all iteration counts.", "anchors": ["cmmcore/newthon2.h: newtonsMethod"]}
{"id": "C80", "title": "Vector arithmetic obeys vector algebra", "statement": "Indexing reads and writes exactly the named coordinate and throws beyond the last; dot, cross, distance, projection and unitize satisfy their defining equations (bilinear, perpendicular, right angle of the remainder, unit length) for vec2 and vec3.", "quantifier": "all vectors, all indices", "why_tests_cant": "Continuum of vectors.", "anchors": ["cmmcore/vec.h: vec2", "cmmcore/vec.h: vec3"]}
{"id": "C81", "title": "Spherical coordinates round trip", "statement": "Converting a nonzero vector to spherical coordinates and back returns the vector; the angles lie in their ranges; converting spherical coordinates in range to Cartesian and back returns them.", "quantifier": "all real vectors and all spherical coordinates in range", "why_tests_cant": "Continuum, with branch cuts.", "anchors": ["cmmcore/vec.h: cartesian_to_spherical", "cmmcore/vec.h: spherical_to_cartesian"]}
{"id": "C82", "title": "Vector equality is an equivalence", "statement": "operator== on vectors is reflexive, symmetric and transitive, and takes every coordinate into account. (Violated: comparison within an epsilon is not transitive, and vec4 ignores the weight.)", "quantifier": "all vectors", "why_tests_cant": "Transitivity quantifies over triples.", "anchors": ["cmmcore/vec.h: operator=="]}
{"id": "C83", "title": "Homogeneous vectors and bulk operations agree with the scalar ones", "statement": "dot, cross, length and unitize on vec4 act on the Cartesian part in the same way on every platform, and the bulk helpers dist and dot_products compute the distance and dot product of each pair. (Violated: the ARM path of dot includes the weight, cross leaves stale weights, dist returns a wrong value, dot_products writes out of bounds.)", "quantifier": "all vectors, both platform variants", "why_tests_cant": "Continuum of vectors; the two platform variants cannot be run side by side.", "anchors": ["cmmcore/vec.h: vec4", "cmmcore/vec.h: dist", "cmmcore/vec.h: dot_products"]}
{"id": "C84", "title": "Hashes separate neighbouring keys", "statement": "Two keys that differ in exactly one (quantised) coordinate have different hashes. (Violated for pairs of numbers, whose hash ignores the second, and for directions, which all have the hash 1; holds for vec2, vec3 and the spatial keys of polylines.)", "quantifier": "all keys", "why_tests_cant": "2^96 keys and more.", "anchors": ["cmmcore/cm_hash.h: PairDoubleHash", "cmmcore/vec.h: Vec2Hash", "cmmcore/vec.h: Vec3Hash", "cmmcore/polygon.h: Normal2Hash", "cmmcore/polyline.h: PointKeyHash"]}
{"id": "C85", "title": "Curve and surface calls throw only for the documented reasons", "statement": "A call on a curve or surface throws an exception exactly if the net is empty (constructor), the parameter is outside the interval (split, isocurve) or the direction is not 0 or 1 (get_derivative); evaluation, knot insertion, boxes and flattening never throw; with arrays too short for the stated size and degree they read out of bounds.", "quantifier": "all curves and surfaces, consistent or not, all parameters", "why_tests_cant": "Quantifies over all malformed objects; out-of-bounds reads need not be visible in a test.", "anchors": ["cmmcore/nurbs.h: NURBSCurve", "cmmcore/nurbs.h: NURBSSurface", "cmmcore/boundary_intersection.h: extract_isocurve"]}
{"id": "C86", "title": "Decomposition yields the Bézier pieces", "statement": "decompose of a valid clamped curve with equal weights appends to the output one curve per pair of neighbouring distinct knots, in order; each has the same degree, degree+1 control points, full multiplicity at both ends and the same points as the curve over these two knots, and the pieces cover the whole curve. decompose of a valid clamped surface (any weights) does the same in u, in v, or in both directions row by row. (Knots that are not clamped, such as those of periodic curves, are outside the claim: there the pieces are wrong.)", "quantifier": "all valid clamped curves and surfaces with distinct knots farther apart than the split tolerance, all parameters", "why_tests_cant": "All knot vectors, degrees and numbers of spans, and a continuum of parameters in every piece.", "anchors": ["cmmcore/nurbs.h: NURBSCurve::decompose", "cmmcore/nurbs.h: NURBSSurface::decompose"]}
{"id": "C87", "title": "Joining two curves", "statement": "join refuses periodic curves and curves none of whose ends lie within 1e-10 of each other; otherwise the result runs along the first and then along the second curve, each reversed if necessary so that the near ends meet, has the shape of the two, and is closed exactly if the outer ends meet. (Violated: the result takes the degree of the first curve and new uniform knots, so its shape differs; the closing test divides positions by weights.)", "quantifier": "all pairs of curves", "why_tests_cant": "All pairs of curves and orientations; the shape claim is about a continuum of points.", "anchors": ["cmmcore/nurbs.h: NURBSCurve::join"]}
{"id": "C88", "title": "Setters and constructors keep a curve consistent", "statement": "After set_control_points, set_knots, set_degree and after the constructors the object is a valid curve or surface with the given data and an up-to-date interval; get_control_points3d returns the positions of the control points. (Violated: set_degree never leaves a valid curve, and get_control_points3d divides positions by weights although curves store them undivided.)", "quantifier": "all curves, nets, degrees and knot vectors", "why_tests_cant": "Quantifies over all object states.", "anchors": ["cmmcore/nurbs.h: NURBSCurve::set_control_points", "cmmcore/nurbs.h: NURBSCurve::set_degree", "cmmcore/nurbs.h: NURBSCurve::set_knots", "cmmcore/nurbs.h: NURBSCurve::get_control_points3d", "cmmcore/nurbs.h: NURBSSurface::NURBSSurface"]}
{"id": "C89", "title": "The Gauss map is the normal field", "statement": "gaussMap of a polynomial Bézier patch of degrees 1 to 4 is a polynomial Bézier patch whose value at every (u,v) is the cross product of the two partial derivatives of the patch at (u,v); class GaussMap keeps its control points and their opposites. (From degree 5 on the map has degree 9 or more and evaluating it overflows a fixed-size array.)", "quantifier": "all polynomial Bézier patches, all parameters in the unit square", "why_tests_cant": "All control nets and a continuum of parameters.", "anchors": ["cmmcore/gauss_map.h: gaussMap", "cmmcore/gauss_map.h: GaussMap::build", "cmmcore/monomial.h: Monomial2D::computeNormal"]}
{"id": "C90", "title": "Gauss map separability excludes parallel normals", "statement": "If gaussMapSeparability (or GaussMap::separabilityTest) of the Gauss maps of two patches returns true, then no normal of one patch is parallel to a normal of the other, so the patches cannot meet in a closed loop. (Violated: overlapping coplanar rectangles, patches whose normal cones meet, and collinear projections are all declared separable.)", "quantifier": "all pairs of patches, all pairs of parameters", "why_tests_cant": "Relates a finite test on control points to a continuum of normal pairs.", "anchors": ["cmmcore/gauss_map.h: gaussMapSeparability", "cmmcore/gauss_map.h: GaussMap::separabilityTest", "cmmcore/separability.h: SphericalCentralProjectionTest", "cmmcore/separability.h: SphericalCentralProjectionTest2", "cmmcore/numeric_utils.h: centerProjectionToXY"]}
{"id": "C91", "title": "Surface-surface search is sound, ends and misses nothing", "statement": "findStartIntersectionPoints of two clamped surfaces with positive weights ends; both surfaces pass within the tolerance (per coordinate) of every reported point at the reported parameters; every reported pair of boundary points belongs to parts of the surfaces whose Gauss maps are separable; and every common point of the surfaces is covered by a report. (The last part is violated: pairs whose boxes overlap in a flat box or in a volume below the tolerance are dropped, so two squares crossing at a right angle yield nothing.)", "quantifier": "all pairs of clamped surfaces, all tolerances, all behaviours of the hull and of the curve-surface intersection", "why_tests_cant": "A recursion of unbounded depth over all surfaces; coverage is a statement about a continuum of common points.", "anchors": ["cmmcore/ssx.h: detectIntersections", "cmmcore/ssx.h: findStartIntersectionPoints", "cmmcore/ssx.h: processSimpleSurfaceIntersection"]}
{"id": "C92", "title": "Boxes of parts are nested", "statement": "The bounding box of a curve or surface is the smallest box with its projected control points. Splitting a curve or surface with positive weights, or subdividing a surface, gives parts with positive weights whose bounding boxes lie inside the bounding box of the whole, so a search that discards a pair of boxes never loses one of their parts.", "quantifier": "all valid curves and surfaces with positive weights, all admissible split parameters", "why_tests_cant": "All control nets, all real parameters.", "anchors": ["cmmcore/nurbs.h: NURBSCurve::split", "cmmcore/nurbs.h: NURBSSurface::split_surface_u", "cmmcore/nurbs.h: NURBSSurface::split_surface_v", "cmmcore/nurbs.h: NURBSSurface::subdivide", "cmmcore/nurbs.h: NURBSSurface::bbox"]}
{"id": "C93", "title": "Rational surface derivatives obey the quotient rule", "statement": "From the partial derivatives of the weighted numerator and of the weight of a rational surface, the rational derivative table contains the partial derivatives of the quotient: every product of the weight and the table obeys Leibniz's rule in both parameters. A zero weight at the point, or a table with too few entries, is undefined.", "quantifier": "all derivative orders, all tables of homogeneous derivatives, all rational surfaces with non-zero weight at the point", "why_tests_cant": "All orders of derivation and all real tables.", "anchors": ["cmmcore/nurbs_utils.h: rat_surface_derivs"]}
{"id": "C94", "title": "Control points of curve derivatives", "statement": "The table of derivative control points of a curve is right: on every knot span between the chosen control points, the k-th derivative of the B-spline curve is the B-spline of degree p-k with the points of row k. The routine returns exactly when the range of points lies in the control polygon and no denominator is zero; otherwise it is undefined.", "quantifier": "all degrees, sorted knot vectors, control points, ranges, orders, spans and parameters", "why_tests_cant": "All orders, knots and real parameters.", "anchors": ["cmmcore/nurbs_utils.h: curve_deriv_cpts"]}
{"id": "C95", "title": "Control nets of surface derivatives", "statement": "The table of derivative control nets of a surface is right: on every rectangle of knot spans between the chosen control points, the mixed partial derivative of orders (k, l) of the B-spline surface is the B-spline surface of degrees p-k and q-l with the net at place (k, l). The routine returns exactly when both ranges lie in the control net and no denominator is zero.", "quantifier": "all degrees, sorted knot vectors, control nets, ranges, orders with k + l within the requested order, rectangles and parameters", "why_tests_cant": "All orders, knots and real parameters.", "anchors": ["cmmcore/nurbs_utils.h: surface_deriv_cpts"]}
{"id": "C96", "title": "Knot refinement keeps the curve", "statement": "Refining a curve at parameters of its domain that lie at least 1e-8 apart from each other and from the knots gives a sorted knot vector in which exactly the requested parameters are raised to multiplicity p, as many control points as that vector needs, and a curve whose coordinates have the same values at every parameter. The requested parameters are those of the list (without a list: the knots but the p first and last), the additional ones, and the points that divide each interval between neighbours into 2^(density-1) equal parts. The call throws if all of them already have multiplicity p, and is undefined for parameters beyond the last knot, for empty input and for a knot vector that is too short.", "quantifier": "all degrees, sorted knot vectors, control points, lists of parameters, densities and curve parameters", "why_tests_cant": "All knot vectors, lists and real parameters; the routine works in place on overlapping index ranges.", "anchors": ["cmmcore/nurbs_utils.h: knot_refinement"]}
{"id": "C97", "title": "Knot removal undoes knot insertion", "statement": "Removing a knot that has just been inserted gives back the control points of the curve before the insertion, and a knot whose removal would move the curve by more than the tolerance is not removed.", "quantifier": "all degrees, sorted knot vectors, control points, knots inside the domain and tolerances", "why_tests_cant": "All curves and knots; whether the recursions from both sides meet depends on degree, multiplicity and parity.", "anchors": ["cmmcore/nurbs_utils.h: knot_removal, knot_removal_alpha_i, knot_removal_alpha_j, point_distance"]}
{"id": "C98", "title": "Spherical boxes contain their points and separable boxes have disjoint contents", "statement": "For every non-empty set of points the spherical box stores, per axis, the smallest wedge of angles that contains the angles of all the points, and when the spherical box test reports two sets as separable then no direction lies in the wedges of both on every axis.", "quantifier": "all non-empty finite sets of points, in any order, on either side of the cut of atan2", "why_tests_cant": "All sets of points; wedges that cross the cut at pi and sets with more than two points behave differently from the common small cases.", "anchors": ["cmmcore/aabb.h: SphericalAABB, find_smallest_wedge, separable, intersects", "cmmcore/separability.h: SphericalAABBTest"]}
{"id": "C99", "title": "The cross product of two surfaces is taken cell by cell", "statement": "For two surfaces of the same size, cross(a, b) returns a surface of that size with the u knots and degree of a and the v knots and degree of b, whose control point in every cell is the cross product of the points of a and b in that cell.", "quantifier": "all pairs of surfaces of the same size, all degrees and knot vectors, fresh and reused result objects", "why_tests_cant": "All grids; square symmetric grids hide the transposed access, and only some coordinates show the wrong formula.", "anchors": ["cmmcore/nurbs.h: surfaceCrossProduct, cross", "cmmcore/vec.h: vec4::cross"]}
{"id": "C100", "title": "Curves and surfaces are as smooth as their knots allow", "statement": "A curve with positive weights whose inner knots are repeated at most degree - k times is k times continuously differentiable on its whole domain, so a curve built by the constructor is degree - 1 times continuously differentiable; a surface with positive weights is k times continuously differentiable in both parameters together under the same condition on each knot vector.", "quantifier": "all curves and surfaces with valid knots, all degrees, all orders k, all parameters of the domain (real numbers)", "why_tests_cant": "Continuity and differentiability are statements about infinitely many parameters, and samples on both sides of a knot cannot settle a limit.", "anchors": ["cmmcore/nurbs.h: NURBSCurve::evaluate, NURBSCurve::NURBSCurve, NURBSSurface::evaluate", "cmmcore/nurbs_utils.h: curve_point, surface_point, basis_funs, find_span"]}
{"id": "C101", "title": "Control points act locally", "statement": "Moving control point i of a curve changes the curve only for parameters between knot i and knot i + degree + 1; everywhere else evaluate returns the same point. With unit weights the curve moves by a fraction between 0 and 1 of the displacement, positive strictly inside that range. For a surface the change is confined to the product of the two ranges.", "quantifier": "all valid curves and surfaces, all control points, all displacements, all parameters of the domain", "why_tests_cant": "All knot vectors with repeated knots, all indices and a continuum of parameters.", "anchors": ["cmmcore/nurbs.h: NURBSCurve::set_control_points, NURBSCurve::evaluate, NURBSSurface::evaluate", "cmmcore/nurbs_utils.h: curve_point, surface_point, basis_funs, find_span"]}
{"id": "C102", "title": "Periodic curves are closed", "statement": "A curve built as periodic, or made periodic with make_periodic, is closed: its two ends, at the ends of interval(), agree in position and in all derivatives up to degree - 1; is_periodic() says true exactly of such curves.", "quantifier": "all control point lists, all degrees up to the supported one, open and periodic curves", "why_tests_cant": "All degrees and numbers of points; all derivatives.", "anchors": ["cmmcore/nurbs.h: NURBSCurve::make_periodic, NURBSCurve::is_periodic, NURBSCurve::interval, NURBSCurve::update_interval", "cmmcore/nurbs_utils.h: generate_knots_periodic"]}
{"id": "C103", "title": "Constructors agree and copies and moves behave like the original", "statement": "All ways to build the same curve or surface agree: points without weights count as weight 1, a missing degree means cubic from four points on and a polyline below, and a curve of a given size whose control points are set later equals the curve built from them. A copied, assigned or moved-to curve answers every sequence of later calls like the original.", "quantifier": "all control points, degrees and sizes; all sequences of later public calls", "why_tests_cant": "The equality must hold after every later history of calls; a forgotten member shows only in some of them.", "anchors": ["cmmcore/nurbs.h: NURBSCurve::NURBSCurve, NURBSCurve::operator=, NURBSCurve::set_control_points, NURBSSurface::NURBSSurface", "cmmcore/vec.h: vec4::set"]}
{"id": "C104", "title": "The cached box encloses the curve after every history", "statement": "After any sequence of constructor calls, knot insertions, knot and control point changes and derivatives, aabb() encloses every point of the curve or surface.", "quantifier": "all sequences of public calls that keep the object usable, all parameters of the domain", "why_tests_cant": "All histories and a continuum of parameters; the cache goes stale only after particular calls.", "anchors": ["cmmcore/nurbs.h: NURBSCurve::aabb, NURBSCurve::bbox, NURBSCurve::rebuildAABB, NURBSCurve::set_control_points, NURBSCurve::get_derivative, NURBSSurface::aabb", "cmmcore/ccx.h: ccx"]}
{"id": "C105", "title": "The BVH builders divide and join objects by position", "statement": "Each inner node of a tree built top-down divides its objects by the middle plane of its box across the longest axis for which objects begin on both sides of that plane, and into two halves only if there is no such axis. A tree built bottom-up arises in rounds; in each, the partial trees are ordered along an axis on which everything together is longest and neighbours are joined.", "quantifier": "all object lists, all conforming sort and partition algorithms", "why_tests_cant": "Ties, flat and coincident boxes and every admissible order of the standard algorithms must be covered.", "anchors": ["cmmcore/bvh.hpp: split_objects, build_bvh_top_down, build_bvh_bottom_up, compute_extents"]}
{"id": "C106", "title": "BVH queries are exact on trees put together by hand", "statement": "Box queries and both tree-tree queries report exactly the right objects or pairs on every tree whose nodes with an object have that object's box and no children, and whose other nodes have a box that encloses all objects below; boxes need not be tight and children may be missing. An object in a node with children breaks this.", "quantifier": "all trees of that form, all query boxes and results collected before", "why_tests_cant": "All shapes of trees, including unbalanced ones and nodes with one child.", "anchors": ["cmmcore/bvh.hpp: BVHNode, traverse_bvh, intersect_bvh, intersect_bvh_iterative"]}
{"id": "C107", "title": "convex_hull gives the convex hull and its kind", "statement": "convex_hull of points in space leaves in the output vector input points, none twice, whose convex hull contains every input point, and answers EMPTY, POINT, LINE, FLAT or VOLUME according to the dimension of the hull; the overload for points in the plane does the same with a convex polygon in counterclockwise order.", "quantifier": "all point lists, all contents of the output vector, all conforming sort algorithms and Quickhull answers", "why_tests_cant": "All positions of the points, including vertical and tilted planes and points nearly in one plane.", "anchors": ["cmmcore/convexhull.h: convex_hull", "cmmcore/_convexhull/quickhull.hpp: convex_hull3d", "cmmcore/_convexhull/convexhull2d.h: convex_hull2d"]}
{"id": "C108", "title": "Convex polygons are classified exactly", "statement": "For strictly convex polygons with at least three vertices, in either orientation and of moderate size, polygonRelationship2D returns DISTANCE exactly if they have no common point, INTERSECT exactly if they have a common interior point, and TOUCH exactly if they have common points but no common interior point. pointInPolygon2D returns true for every interior point of such a polygon and false for every point outside.", "quantifier": "all pairs of strictly convex polygons, all points", "why_tests_cant": "Continuum of positions and all numbers of vertices; it is the separating axis theorem.", "anchors": ["cmmcore/polygon.h: polygonRelationship2D", "cmmcore/polygon.h: pointInPolygon2D"]}
{"id": "C109", "title": "Polygon normals", "statement": "polygonNormals appends for every edge, in order, the edge turned clockwise by a right angle (outward for a convex counterclockwise polygon); with normalisation, into an empty vector, these have length one, and it throws exactly if successive vertices coincide. polygonUniqueNormals adds only normals of edges, keeps the set's content, and afterwards every edge has a normal in the set that is parallel to its own or equal up to the machine epsilon; it throws for repeated successive vertices.", "quantifier": "all polygons, output vectors and sets, all hash set implementations", "why_tests_cant": "All polygons and all insertion histories of the set.", "anchors": ["cmmcore/polygon.h: polygonNormals", "cmmcore/polygon.h: polygonUniqueNormals"]}
{"id": "C110", "title": "Files give back what was written, and failures and crashes are noticed", "statement": "Curves written with writeNURBSCurvesToFile are read back by readNURBSCurvesFromFile with the same degrees, control points and knots; a file that cannot be opened gives false (writing) or an exception (reading); the answer true means that the file is complete; an interrupted write leaves the old or the new contents. A MemoryView written to the start of a FILE is what read_from_file returns, after any later writes and reads; errors are exceptions, and an incomplete file is rejected.", "quantifier": "all curves, views, previous file contents, device failures, crash points and later operations on the stream", "why_tests_cant": "Every point of interruption and every amount of bytes a device takes; tests run on devices that do not fail.", "anchors": ["cmmcore/serialization.h: writeNURBSCurvesToFile, readNURBSCurvesFromFile", "cmmcore/memoryview.h: write_to_file, read_from_file"]}
{"id": "C111", "title": "convex_hull3d returns exactly the extreme points", "statement": "convex_hull3d adds to the output vector, each once, exactly the input points that are in the convex hull of no other input points, so that their convex hull contains every input point; no assertion fails and the calculation ends.", "quantifier": "all lists of points in space, all contents of the output vector", "why_tests_cant": "The surface is rebuilt point by point through depth-first searches whose order depends on the data; the result must be right for every position and order of the points.", "anchors": ["cmmcore/_convexhull/quickhull.hpp: convex_hull3d, quick_hull::create_initial_simplex, quick_hull::create_convex_hull, quick_hull::process_visibles"]}
{"id": "C112", "title": "get_affine_basis finds the dimension and the furthest points", "statement": "For points with integer coordinates up to ten million get_affine_basis gives distinct points, the first input point first: none for no points, one if all are equal, two if all are on a line, three if all are in a plane, and four otherwise; each one is furthest from the point, line or plane of the ones before it.", "quantifier": "all lists of such points", "why_tests_cant": "All configurations, including repeated and degenerate ones, where a reflection could cancel.", "anchors": ["cmmcore/_convexhull/quickhull.hpp: quick_hull::get_affine_basis, quick_hull::steal_best, quick_hull::orthonormalize, quick_hull::forward_transformation"]}
{"id": "C113", "title": "The facets are exactly the faces of the convex hull", "statement": "For at least four points no four of which are in a plane, the facets at the end of create_convex_hull are exactly the triangles of input points with all other points strictly behind them, each once, counterclockwise seen from outside; no assertion fails.", "quantifier": "all lists of points in general position with integer coordinates up to ten million", "why_tests_cant": "Every order in which facets become visible and are replaced; a missing or doubled facet shows only in some orders.", "anchors": ["cmmcore/_convexhull/quickhull.hpp: quick_hull::create_convex_hull, quick_hull::process_visibles, quick_hull::rank, quick_hull::compactify, quick_hull::check"]}
{"id": "C114", "title": "Volumes and planes are exact for integer points", "statement": "For integer coordinates up to ten million, hypervolume is the signed volume of the parallelepiped, and for three points not on a line set_hyperplane_equation gives the outward unit normal and the signed distance of every point.", "quantifier": "all such points", "why_tests_cant": "The elimination treats small pivots as zero; no configuration may lose a pivot that is not zero.", "anchors": ["cmmcore/_convexhull/quickhull.hpp: quick_hull::det, quick_hull::set_hyperplane_equation, quick_hull::hypervolume, facet::distance"]}
{"id": "C115", "title": "Printed points, boxes and trees of boxes can be read back", "statement": "The text of format_vec3, format_vec3vec, output_aabb, output_objects3d and output_bvh_nodes determines the points, boxes and the shape of the tree, with every coordinate rounded to the nearest hundredth.", "quantifier": "all finite coordinates, lists and trees of any size and depth", "why_tests_cant": "The text must be unambiguous for every tree shape and every number of digits.", "anchors": ["cmmcore/vec.h: format_vec3, format_vec3vec", "cmmcore/bvh.hpp: output_aabb, output_objects3d, output_bvh_nodes"]}
{"id": "C116", "title": "Points written to a stream can be read back", "statement": "The text that operator<< writes for a vec2, vec3 or vec4 determines the coordinates to six significant digits.", "quantifier": "all finite coordinates", "why_tests_cant": "Two points with the same text are only found by looking at all points.", "anchors": ["cmmcore/vec.h: operator<< of vec2, vec3, vec4"]}
{"id": "C117", "title": "Exported numbers keep their value and are valid", "statement": "Every coordinate, knot and weight in an exported STEP text, and every number written by formatReal, is read back as the number that was exported, and is a REAL token of ISO 10303-21.", "quantifier": "all finite numbers", "why_tests_cant": "All sizes and numbers of digits of the value.", "anchors": ["cmmcore/nurbs.h: NURBSCurve::toSTEP, NURBSSurface::toSTEP", "cmmcore/utils.h: vectorToString, formatReal"]}
{"id": "C118", "title": "vectorColumn extracts a column", "statement": "For a matrix whose rows all have the given column, vectorColumn sets the output to the entries of this column from top to bottom; if a row is too short it throws out_of_range.", "quantifier": "all matrices, columns and previous contents of the output", "why_tests_cant": "All shapes, in particular with different numbers of rows and columns.", "anchors": ["cmmcore/utils.h: vectorColumn"]}
{"id": "C119", "title": "calc_epsilon is the size of a rounding unit", "statement": "calc_epsilon(x) is at least the distance from x to the next double and less than twice this distance.", "quantifier": "all finite x", "why_tests_cant": "All magnitudes.", "anchors": ["cmmcore/utils.h: calc_epsilon"]}
{"id": "C120", "title": "An exported STEP file can be split into its instances", "statement": "If no weight is zero, the characters of a file written by writeSTEPFile are, as symbols of ISO 10303-21, the header with the current UTC time, then every instance of the export as `#id = KEYWORD(...);` with its references, whole numbers, strings, enumeration values and parentheses in order and its coordinates, knots and weights to six significant digits, then the footer, and there is no other way to split them. With a zero weight the file cannot be read. A file that cannot be opened makes writeSTEPFile throw.", "quantifier": "all surfaces and curves of any size and degree, all times", "why_tests_cant": "Numbers of any length and sign next to separators, and grids of any size.", "anchors": ["cmmcore/nurbs.h: NURBSSurface::writeSTEPFile, NURBSSurface::toSTEP, NURBSCurve::toSTEP, getCurrentDateTime", "cmmcore/utils.h: vectorToString"]}
{"id": "C121", "title": "Evaluated points are accurate in floating point", "statement": "If every arithmetic operation is rounded with relative error u, evaluate of a curve with valid knots and positive weights returns a point whose coordinates differ from those of the exact curve by at most (14 degree + 10) u times the largest coordinate of the control points, and evaluate of a surface by at most (14 (degree_u + degree_v) + 14) u times the largest coordinate of its control points in space; for double rounded to nearest these are 2^-46 and 2^-45 of the largest coordinate. Each basis function is computed with a relative error of (6 degree + 2) u. The computed point need not be exactly an end point at the ends of a clamped curve, nor inside the box of the control points.", "quantifier": "all curves and surfaces with valid knots of any degree up to 8, positive weights, all parameters of the domain, all rounding functions with relative error u up to 2^-16", "why_tests_cant": "The worst rounding error over all knots, weights and parameters is not reached by samples.", "anchors": ["cmmcore/nurbs_utils.h: find_span, basis_funs, curve_point, surface_point", "cmmcore/nurbs.h: NURBSCurve::evaluate, NURBSSurface::evaluate"]}
{"id": "C122", "title": "Box operations agree on all processors", "statement": "intersects, intersection, merge and volume of boxes give the results of the scalar code on every supported processor (NEON, x86-64, others), wherever the boxes are stored.", "quantifier": "all pairs of boxes, all addresses divisible by 16", "why_tests_cant": "Tests run on one processor; the alignment of the memory accesses must be right at every address.", "anchors": ["cmmcore/aabb.h: AABB::intersects, AABB::intersection, AABB::merge, AABB::volume", "cmmcore/vec.h: vec3"]}
{"id": "C123", "title": "k-d trees own their nodes", "statement": "In every history of constructing, building, inserting into, searching, copying, assigning and destroying any number of KDTree objects no node is used after it is freed or freed twice, every object answers from its own points, and once all objects are destroyed no node is left allocated; a call that fails for lack of memory leaves its object usable and unchanged.", "quantifier": "all histories of calls on all objects, all allocators (addresses may be reused), all allocation failures, all conforming nth_element", "why_tests_cant": "A double free or a leak shows only in particular histories of several objects, and an allocation failure can hit at any call.", "anchors": ["cmmcore/kdtree.h: KDTree::build, KDTree::insert, KDTree::~KDTree, KDTree::deleteKDTree, KDTree::rangeSearch, KDTree::nearestNeighbor, KDTree::size", "cmmcore/kdtree.h: implicit copy constructor and assignment"]}
{"id": "C124", "title": "Memory views free what they allocate, once", "statement": "In every history of creating, copying, slicing, deserializing, reading and destroying MemoryView objects, in which memory is read only while the view that owns it lives, no block is freed twice or read after it was freed, and once all views are destroyed every block the class allocated is freed.", "quantifier": "all histories of calls on any number of views, all allocators (addresses may be reused)", "why_tests_cant": "Whether a block is freed twice or never depends on the order in which several views of it are copied and destroyed.", "anchors": ["cmmcore/memoryview.h: MemoryView::copy, MemoryView::slice, MemoryView::operator[], MemoryView::operator(), MemoryView::deserialize, MemoryView::~MemoryView", "cmmcore/memoryview.h: implicit copy constructor"]}
{"id": "C125", "title": "NaN coordinates do not hide other objects", "statement": "A bounding volume tree answers a box query with exactly the objects whose box meets the query box, also when the boxes of other objects have NaN coordinates, and the box of a list of points contains every point that has no NaN.", "quantifier": "all lists of objects or points, with NaN anywhere, all query boxes, both builders, all conforming standard libraries", "why_tests_cant": "Whether a NaN spreads depends on where the object ends up in the tree and on the order of the operands of every min and max.", "anchors": ["cmmcore/bvh.hpp: build_bvh, build_bvh_top_down, build_bvh_bottom_up, split_objects, traverse_bvh", "cmmcore/aabb.h: AABB::merge, AABB::expand, AABB(const std::vector<vec3>&), AABB::intersects"]}
{"id": "C126", "title": "NaN points do not hide other points of a kd-tree", "statement": "After any sequence of insertions of points, some with NaN coordinates, a range search returns exactly the points in the box, and the nearest neighbour search returns a nearest point among those without NaN.", "quantifier": "all sequences of inserted points, with NaN anywhere, all queries", "why_tests_cant": "Which points a NaN hides depends on the whole order of insertions.", "anchors": ["cmmcore/kdtree.h: KDTree::insert, KDTree::rangeSearch, KDTree::nearestNeighbor, KDTree::size"]}
{"id": "C127", "title": "Knot insertion is accurate in floating-point arithmetic", "statement": "When every arithmetic operation rounds, inserting a knot that is equal to or clearly apart from each other knot into a curve with equal weights gives the knots of exact insertion, and the new curve evaluates at every parameter of the domain to the point of the old curve up to a small multiple of the unit roundoff times the largest coordinate; weights of one stay exactly one.", "quantifier": "all valid curves with equal positive weights, all insertion parameters and counts within the degree, all evaluation parameters, all roundings with the relative error u", "why_tests_cant": "The rounding errors depend on the knots, the control points and the parameters; no finite set of samples bounds them.", "anchors": ["cmmcore/nurbs.h: NURBSCurve::insert_knot, NURBSCurve::evaluate", "cmmcore/nurbs_utils.h: find_multiplicity, knot_insertion, knot_insertion_alpha, knot_insertion_kv, curve_point"]}
{"id": "C128", "title": "The output object may be one of the arguments", "statement": "A function that writes its result through a reference parameter writes the same result, and changes no other object, when the output is the same object as one of its inputs as when it is a separate object.", "quantifier": "all assignments of objects to the parameters, including the same object for several of them, and all contents of memory", "why_tests_cant": "Aliasing multiplies the cases of every function by the ways in which parameters can coincide, and a statement sequence that reads an already overwritten coordinate can still agree on special values such as axis vectors.", "anchors": ["cmmcore/vec.h: vec3::cross, vec3::sub, vec3::add, vec3::operator+=, cartesian_to_spherical, spherical_to_cartesian", "cmmcore/closest_point.h: vectorProjection, closestPointOnRay, closestPointOnLine, closestPointOnSegm, closestPointOnTriangle", "cmmcore/plane.h: plane::evaluateInv", "cmmcore/nurbs.h: NURBSCurve::get_derivative", "cmmcore/numeric_utils.h: segmentsDistance"]}
{"id": "C129", "title": "An output object may hold old data", "statement": "A function that writes its result into an object of the caller gives the same result whether the object is new or holds data from an earlier call.", "quantifier": "all inputs and all previous contents and shapes of the output object", "why_tests_cant": "The previous content of the output is one more unbounded input, and code that keeps old rows, weights or sums works whenever the old object is empty or happens to have the right shape.", "anchors": ["cmmcore/monomial.h: compute_partial_derivative, cross, setVectorTensor2DComponent, Monomial2D::to_bezier, CMMCORE_RESIZE_TENSOR2D", "cmmcore/gauss_map.h: GaussMap::build", "cmmcore/nurbs.h: NURBSSurface::get_derivative, NURBSSurface::control_points_flat"]}
{"id": "C130", "title": "An empty curve-surface answer means no intersection was overlooked", "statement": "csx does not discard a pair of pieces that have a common point as separated; so an empty answer for a curve and a surface that meet can only come from the size limits of the search: the search reached a pair of pieces around the common point that is as small as the parameter tolerance.", "quantifier": "all Bezier curves and surfaces, tolerances, common points and outcomes of the inner Newton search", "why_tests_cant": "A missed intersection is an absence; it depends on the box test, the distance query and every subdivision on the way.", "anchors": ["cmmcore/csx.h: NURBSCurveSurfaceIntersector::_no_new_intersections", "cmmcore/csx.h: NURBSCurveSurfaceIntersector::_curve_surface_intersect", "cmmcore/nurbs.h: NURBSCurve::get_control_points3d"]}
{"id": "C131", "title": "Curve-surface intersection finds a clean crossing", "statement": "csx as a closed program (with its own Newton search, degeneracy test and separability test) marks a report as degenerate exactly if the tangent and the normal at the report are perpendicular within the tolerance, never reports points farther apart than the middle of the pieces it searched, its Newton search always returns, and it finds a curve crossing a surface.", "quantifier": "all curves and surfaces, tolerances, parameters of the crossing", "why_tests_cant": "All inputs; whether the iteration ends, where it ends and whether the result passes the validity tests depends on every step of the iteration.", "anchors": ["cmmcore/csx.h: csx, NURBSCurveSurfaceIntersector::_find_new_intersection, _is_degenerate", "cmmcore/newthon2.h: newtonsMethod"]}
{"id": "C132", "title": "The ends of a reported intersection patch lie on both surfaces", "statement": "For every pair of points that findStartIntersectionPoints reports as the two ends of an intersection curve, each end is a point of a border of a part of one surface and lies within the tolerance of the other surface, and the parameters stored with the end are the parameters of these points on the two surfaces.", "quantifier": "all clamped surfaces with unit weights, all tolerances and all results of the search", "why_tests_cant": "All inputs; the result goes through the decomposition, the subdivision, the border curves, the curve-surface search with its Newton iteration and the removal of duplicates.", "anchors": ["cmmcore/ssx.h: findStartIntersectionPoints, detectIntersections, processSimpleSurfaceIntersection", "cmmcore/boundary_intersection.h: find_boundary_intersections, boundary_index_to_params", "cmmcore/csx.h: csx"]}
{"id": "C133", "title": "The plane hull depends on the set of points only, and its argument stays usable", "statement": "convex_hull2d overwrites the vector it is given. Afterwards the vector holds the same number of points, all from the input, among them every vertex of the hull, with the lowest point in front; points that are no vertices may be lost. Calling it again on the same vector returns the same hull. The hull does not depend on the order or multiplicity of the points, nor on the sorting algorithm.", "quantifier": "all lists of plane points that the tolerance of the function resolves, all sorting algorithms that meet the contract of std::sort", "why_tests_cant": "All inputs and all implementations of std::sort (an unstable algorithm may leave equal directions in any order).", "anchors": ["cmmcore/_convexhull/convexhull2d.h: convex_hull2d", "cmmcore/separability.h: SphericalCentralProjectionTest, SphericalCentralProjectionTest2"]}
{"id": "C134", "title": "Lengths and distances are as accurate as double", "statement": "vec3::length and distance return the Euclidean length to the accuracy of double for every vector of finite doubles, so that different points have a positive distance, and unitize turns every vector longer than one into a vector of length one to that accuracy. (Violated: the root is taken with sqrtf. The answers have single precision, points nearer than 2^-76 have distance zero, and vectors longer than about 2^64 have infinite length and are turned into the zero vector.)", "quantifier": "all vectors whose coordinates are numbers of the format, all rounding modes with the relative error of double", "why_tests_cant": "All pairs of points; the loss of accuracy is below the tolerance of the usual test.", "anchors": ["cmmcore/vec.h: vec3::length, distance, unitize, normalize, unit"]}
{"id": "C135", "title": "The collinearity test on vectors", "statement": "vec3::collinear and vec4::collinear hold for two nonzero vectors exactly if one is a multiple of the other; in particular every nonzero vector is collinear with itself. (Violated: vectors shorter than one are compared without being normalised, rounding makes the comparison with exactly 1 fail, and no vec4 with weight one away from the origin is collinear with itself.)", "quantifier": "all pairs of vectors", "why_tests_cant": "All vectors; axis-parallel vectors of length above one pass.", "anchors": ["cmmcore/vec.h: CMMCORE_VEC_COLLINEAR, vec3::collinear, vec4::collinear, vec4::project"]}
{"id": "C136", "title": "The Python binding returns the crossings of two polygons' curves", "statement": "pyccx, called with two arrays of coordinates (three columns, or four with the weight) with more rows than the degree and any tolerance, returns the list of parameter pairs at which the curves with these control points cross, and reports bad input as a Python exception. (Violated: too narrow arrays and too few rows are undefined behaviour, and a tolerance of zero ends the process because the C++ exception has no handler; proved for unit weights and tolerances that the control polygons reach after 38 halvings.)", "quantifier": "for all arrays of coordinates, degrees 1 to 8 and positive tolerances", "why_tests_cant": "Whether the recursion ends, and within which depth, depends on real-valued coordinates, the number of points and the tolerance; tests only run a few arrays.", "anchors": ["examples/cython_extension/ccx.pyx pyccx", "cmmcore/ccx.pxd ccx", "cmmcore/ccx.h ccx"]}
{"id": "C137", "title": "Converting JavaScript arrays for the wasm binding", "statement": "The conversion helpers of the JavaScript binding leave exactly the numbers (or the net of points) of the JavaScript array in the vector they are given, whatever it held before. (Violated for nets: rows that already exist are not resized, so narrower rows are written out of bounds and wider rows keep old points; ragged arrays throw.)", "quantifier": "for all JavaScript arrays and all previous contents of the vector", "why_tests_cant": "The previous contents and the shape of the array are arbitrary; the out-of-bounds write shows only for particular pairs of shapes and need not crash.", "anchors": ["examples/wasm/cmmcore_wasm.cpp convertJSArrayToCPPVectorDouble, convertJSArrayToNURBSSurfaceControlPoints"]}
{"id": "C138", "title": "NaN in the data or the parameter of a spline", "statement": "Evaluating a curve or surface whose sizes fit never reads outside its vectors, also with NaN; at a NaN parameter all coordinates are NaN; a NaN in a control point changes only the pieces that use this control point, and there only its own coordinate (all coordinates if it is in the weight); a NaN knot changes nothing before the pieces that use it.", "quantifier": "for all degrees from 1 to 8, numbers of control points, positions of NaN, parameters and any rounding of the arithmetic", "why_tests_cant": "The effect of NaN depends on every comparison in the span search and every sum; positions and combinations of NaN are unbounded.", "anchors": ["cmmcore/nurbs_utils.h find_span, basis_funs, curve_point, surface_point", "cmmcore/nurbs.h NURBSCurve::evaluate, NURBSSurface::evaluate"]}
{"id": "C139", "title": "NaN as the parameter of an insertion or a split", "statement": "split refuses every parameter that is not inside the interval with an exception, and insert_knot does not change the shape, also if the parameter is NaN. (Violated for NaN: both return, the inserted curve and the second piece are NaN everywhere, and evaluating the first piece reads past its knots.)", "quantifier": "for all curves with fitting sizes, all insertion counts up to the degree and both values of the normalising flag", "why_tests_cant": "The claim ranges over all curves; the out-of-bounds read of the returned piece need not crash a test.", "anchors": ["cmmcore/nurbs.h NURBSCurve::split, NURBSCurve::insert_knot", "cmmcore/nurbs_utils.h find_multiplicity, knot_insertion, knot_insertion_kv"]}
{"id": "C140", "title": "Bounded minimisation in floating-point arithmetic", "statement": "Also with rounded operations, minimize_scalar_bounded evaluates the function only at points within the bounds, returns one of them with its value after at most max(maxiter, 2) evaluations, and the value is the least number seen if the first one is a number; success means that the final bracket is not wider than about twice the tolerance, and on a function with a single minimum that the result is that close to it.", "quantifier": "for all functions (also with NaN values), ordered bounds, non-negative tolerances, iteration limits, and all number formats with relative rounding error at most 2^-40 in which results stay in range", "why_tests_cant": "Whether a rounded step leaves the bracket depends on every function, interval and rounding; a test sees a few of them.", "anchors": ["cmmcore/minimize_scalar.h minimize_scalar_bounded"]}
{"id": "C141", "title": "Adaptive integration in floating-point arithmetic", "statement": "Also with rounded operations, integrate calls the function at most 2^(depth+2)+1 times and only between the ends, the intervals it accepts cover the range without gaps, its result is the composite Simpson rule on them up to a rounding error of about (number of intervals + 7) units, so it lies between the bounds of the function times the length up to that error, it is not negative for a function that is not negative, and the reported error is not negative; when find_t1_newton reports convergence, the computed integral at a point within the tolerance differs from the target by at most about the tolerance times the function value.", "quantifier": "for all functions, ordered ends, tolerances and depths, and all binary number formats with relative rounding error at most 2^-40 in which results stay in range", "why_tests_cant": "The rounding of every sum and midpoint depends on the function and the ends; a test sees a few of them.", "anchors": ["cmmcore/integrate.h adaptiveSimpson", "cmmcore/integrate.h integrate", "cmmcore/integrate.h find_t1_newton"]}
{"id": "C142", "title": "Splitting a curve in floating-point arithmetic", "statement": "Also with rounded operations, splitting a curve with equal positive weights inside its domain, away from the ends and from other knots, returns two valid curves of the same degree with positive weights, whose knots are those below and above the parameter; they share the control point at the split exactly; each, evaluated with rounding anywhere on its part of the domain, is the original curve up to (74 degree + 10) rounding units of the largest coordinate, which is less than 2^-43 of it for double; and when all weights are one they stay exactly one, so that the pieces can be split again.", "quantifier": "for all curves with valid knots and equal positive weights, all split parameters more than 2e-12 from the ends and from every other knot, all parameters of evaluation, and all roundings with relative error at most 2^-20", "why_tests_cant": "The rounding of every blend of two control points depends on the curve and the parameter; tests compare a few curves at a few parameters.", "anchors": ["cmmcore/nurbs.h NURBSCurve::split", "cmmcore/nurbs.h NURBSCurve::insert_knot", "cmmcore/nurbs_utils.h knot_insertion", "cmmcore/nurbs_utils.h curve_point"]}
{"id": "C143", "title": "Bézier decomposition in floating-point arithmetic", "statement": "Also with rounded operations, decomposing a clamped curve with weights one appends exactly one curve per pair of neighbouring distinct knots, in order, each of the same degree, with degree + 1 control points of weight one and exactly these two knots; the piece at position i is the curve over its interval up to 20 (i + 1) degree rounding units of the largest coordinate, and evaluated with rounding up to (20 (i + 1) + 28) degree + 20 units, so that in double every point of a curve with up to thirty inner knots is given by some piece up to 2^-40 of the largest coordinate.", "quantifier": "for all valid clamped curves with weights one whose distinct knots are more than 2e-12 apart, all parameters, and all binary formats of at least 20 digits rounded to nearest", "why_tests_cant": "Every split works on the rounded result of the one before, so the error depends on all knots and control points; tests see a few curves.", "anchors": ["cmmcore/nurbs.h NURBSCurve::decompose", "cmmcore/nurbs.h NURBSCurve::split", "cmmcore/nurbs_utils.h uniqueKnots"]}
{"id": "C144", "title": "Curve-curve intersection in floating-point arithmetic reports only near meetings", "statement": "Also with rounded operations, intersecting two Bézier curves with weights one returns normally after at most N halvings if the control polygons halved N times are smaller than the tolerance by more than the rounding errors; it only appends to the list; at every appended pair both parameters lie in the intervals and the two curves, evaluated without rounding, are within 2 (1 + 8u) tolerances plus 20 N degree rounding units of the largest coordinate of each other in each coordinate; consecutive pairs differ, as computed, by more than the tolerance in one parameter. In double, over [0, 1] and with N up to 37, the curves are within 2 (1 + 2^-50) tolerances plus 2^-39 of the largest coordinate.", "quantifier": "for all pairs of Bézier curves of degree one to eight with weights one over intervals wide enough to be halved N + 1 times, all tolerances, all initial lists, all nearly exact square roots and all binary formats of at least 40 digits rounded to nearest", "why_tests_cant": "The search works on pieces of pieces, each computed with rounding from the one before, and the number of halvings depends on the curves; tests see a few pairs of curves.", "anchors": ["cmmcore/ccx.h ccx", "cmmcore/nurbs.h NURBSCurve::split", "cmmcore/nurbs.h NURBSCurve::aabb"]}
{"id": "C145", "title": "Curve-curve intersection in floating-point arithmetic reports every crossing", "statement": "Also with rounded operations, every crossing of two curves is accounted for by a reported pair, as it is without rounding (C56).", "quantifier": "for all pairs of curves, tolerances and arithmetics", "why_tests_cant": "Whether a crossing survives depends on the last digit of the computed control points of all pieces around it; tests see a few pairs of curves, typically with coordinates that halve exactly.", "anchors": ["cmmcore/ccx.h ccx", "cmmcore/nurbs.h NURBSCurve::split", "cmmcore/nurbs_utils.h knot_insertion", "cmmcore/aabb.h AABB::intersects"]}
{"id": "C146", "title": "Error of knot insertion into surfaces in floating-point arithmetic", "statement": "Also with rounded operations, inserting a knot several times into a surface whose weights are one returns a surface with exactly that many more copies of the knot in the chosen direction and unchanged knots in the other, valid and with all weights exactly one, so that more knots can be inserted; over the unchanged domain it is the old surface up to (10 count + 1) / 2^p times the largest coordinate of the control points. In double, insertion in both directions moves no point by more than 2^-45 of the largest coordinate.", "quantifier": "for all valid surfaces of degrees one to eight with weights one, all parameters in the domain further than 2e-12 from every other knot, all counts up to the degree, both directions and all binary formats of at least 20 digits rounded to nearest", "why_tests_cant": "The error of every control point depends on the rounding of all intermediate ones; tests see a few surfaces and parameters.", "anchors": ["cmmcore/nurbs.h NURBSSurface::insert_knot", "cmmcore/nurbs.h NURBSSurface::insert_knot_v", "cmmcore/nurbs_utils.h knot_insertion"]}
{"id": "C147", "title": "Error of splitting and subdividing surfaces in floating-point arithmetic", "statement": "Also with rounded operations, splitting a surface whose weights are one, in either direction and more than twice the tolerance inside the interval, returns two valid surfaces with all weights exactly one, with refreshed intervals and with exactly the knots an exact split has; they are defined exactly on the two sides of the parameter, have the same control points along the seam, and are the given surface there up to (10 degree + 1) / 2^p times the largest coordinate of the control points; no coordinate grows by more than that. In double, the four parts of subdivide(umid, vmid) come in the documented order, cover the four quarters, and are nowhere further than 2^-45 of the largest coordinate from the given surface. subdivide() computes the middles of the intervals up to 3 / 2^53 of their larger end and then does the same.", "quantifier": "for all valid surfaces of degrees one to eight with weights one, all inner parameters further than 2e-12 from every other knot with multiplicity up to the degree, all tolerances, both directions and all binary formats of at least 20 digits rounded to nearest", "why_tests_cant": "The guard at the ends, the multiplicity and the cut index are computed with rounding, and the error of every control point depends on all intermediate ones; tests see a few surfaces and parameters.", "anchors": ["cmmcore/nurbs.h NURBSSurface::split_surface_u", "cmmcore/nurbs.h NURBSSurface::split_surface_v", "cmmcore/nurbs.h NURBSSurface::subdivide"]}
{"id": "C148", "title": "Error of decomposing surfaces into Bézier patches in floating-point arithmetic", "statement": "Also with rounded operations, decompose of a surface whose weights are one and which is clamped in both directions appends one Bézier patch for every pair of neighbouring distinct u knots and every pair of neighbouring distinct v knots, row by row, with exactly these knots, up-to-date intervals and weights one. The patch in row i and column j differs from the surface by at most (1 + (10 du + 1) / 2^p)^(i+1) (1 + (10 dv + 1) / 2^p)^(j+1) - 1 times the largest coordinate; in double, with up to a thousand rows and columns together, this is below 2^-36, and the patches cover the surface. The same holds for the strips of decompose in one direction.", "quantifier": "for all valid clamped surfaces of degrees one to eight with weights one, any number of distinct knots more than 3e-7 apart with inner multiplicities up to the degree, and all binary formats of at least 20 digits rounded to nearest", "why_tests_cant": "Every split works on the rounded result of the splits before it, so the error depends on the position in the grid and on all knots; tests see a few surfaces with few knots.", "anchors": ["cmmcore/nurbs.h NURBSSurface::decompose", "cmmcore/nurbs.h NURBSSurface::split_surface_u", "cmmcore/nurbs.h NURBSSurface::split_surface_v", "cmmcore/nurbs_utils.h uniqueKnots"]}
{"id": "C149", "title": "The 2D convex hull in floating-point arithmetic is exact", "statement": "In double, with every difference, product and sum of its tests rounded, convex_hull2d returns for points that are not all on a line exactly the corners of their convex hull: points of the input, in counterclockwise order, strictly convex, starting at the lowest point (of several the leftmost), containing every input point without any rounding slack, and the same list as in exact arithmetic whatever sorting algorithm is used. Three or more points on one line give an empty result. For coordinates around 10^8 this fails: a triangle of whole numbers gives an empty result.", "quantifier": "for all lists of points with coordinates up to 100 in absolute value, any three of which are on a line or span a triangle with twice the area at least 2e-9, and any two of which are at the same height or at least 2e-9 apart in height; for all sorting algorithms that meet the contract of std::sort", "why_tests_cant": "One wrongly rounded turn or distance can drop or add a corner, or make the comparator inconsistent; which triples of points are affected depends on all coordinates.", "anchors": ["cmmcore/_convexhull/convexhull2d.h convex_hull2d", "cmmcore/_convexhull/convexhull2d.h orientation", "cmmcore/_convexhull/convexhull2d.h PointComparator"]}
{"id": "C150", "title": "The relationship of two polygons in floating-point arithmetic", "statement": "In double, with edge normals and projections rounded, polygonRelationship2D answers DISTANCE whenever there is a gap of at least 3e-11 divided by the length of an edge in the direction normal to this edge, and only if in the direction normal to some edge the polygons overlap by less than this. It answers INTERSECT whenever the polygons overlap by at least this in the direction normal to every edge. Polygons with a common corner are never reported as DISTANCE. The slack cannot be dropped: there are two triangles that meet, a corner of one being the middle of an edge of the other, which are reported as DISTANCE, and two triangles that only touch which are reported as INTERSECT.", "quantifier": "for all lists of points with coordinates up to 100 in absolute value (the common corner: for all points and every rounding)", "why_tests_cant": "Whether two projections are ordered correctly depends on the rounding of every product; the wrong answers are at special positions among all pairs of polygons.", "anchors": ["cmmcore/polygon.h polygonRelationship2D"]}
{"id": "C151", "title": "Points in polygons in floating-point arithmetic", "statement": "In double, for polygons with abscissas up to 100, pointInPolygon2D gives the answer of exact arithmetic for every point from which the edges are at least 4e-13 away, measured horizontally. So for such a point the answer true means that the point is in the convex hull, and for a strictly convex polygon of either orientation every inner point is found and every point outside is rejected. The distance cannot be dropped: near an edge there are points outside a triangle reported as inside, and points of the interior reported as outside.", "quantifier": "for all polygons (convex or not, any number of corners) with abscissas up to 100 in absolute value and all points at that distance from the edges", "why_tests_cant": "Whether a crossing is on the right of the point depends on the rounding of five operations; the wrong answers are at special positions among all polygons and points.", "anchors": ["cmmcore/polygon.h pointInPolygon2D"]}
{"id": "C152", "title": "The separating-axis test in floating-point arithmetic", "statement": "In double, with edge normals, projections and quotients rounded, SAT2D answers true (separated) only for two different points, or if in the direction normal to some edge of the polygon whose edges it tests the two polygons overlap by less than 3e-11 divided by the length of that edge. So polygons that overlap by more than this in these directions are never reported as separated. Conversely it answers true whenever there is a gap of at least 5e-11 divided by the length of such an edge, if no tested edge is shorter than 1e-100, even when the normal itself is skipped as equal to an earlier one. The slack cannot be dropped: two triangles that meet, a corner of one being the middle of an edge of the other, are reported as separated.", "quantifier": "for all lists of points with coordinates up to 100 in absolute value and without repeated successive vertices in the tested polygon, and every behaviour of the hash set of normals", "why_tests_cant": "Whether two projections are ordered correctly depends on the rounding of every product and quotient; the wrong answers are at special positions among all pairs of polygons.", "anchors": ["cmmcore/separability.h SAT2D", "cmmcore/separability.h polygonProject", "cmmcore/vec.h vec2::projection"]}
{"id": "C153", "title": "Which laws of vector algebra survive rounding", "statement": "With every operation rounded, vector sums and dot products still do not depend on the order of the two arguments, and the difference and the cross product of a vector with itself are exactly zero. Under rounding to nearest, exchanging the arguments of a cross product or a difference changes exactly the sign, distances are exactly symmetric, and a squared distance is never negative and zero for equal points only. A dot product is off by at most ((1+u)^3-1) times the sum of the absolute values of the products, each coordinate of a cross product by ((1+u)^2-1) times the same sum, and a squared distance by ((1+u)^5-1) times itself. Two laws are lost: in double the cross product is not orthogonal to its arguments, and addition is not associative.", "quantifier": "for all pairs of vectors of floating-point numbers; for the first two laws, every rounding; for the others, every rounding that is symmetric in sign, or has a relative error u below 1", "why_tests_cant": "A sampled law may hold by luck of rounding; only a proof over all pairs tells the laws that code may rely on from those it may not.", "anchors": ["cmmcore/vec.h vec3::dot", "cmmcore/vec.h vec3::cross", "cmmcore/vec.h vec3::distanceSq", "cmmcore/vec.h vec2::cross"]}
{"id": "C154", "title": "Projection of a vector in floating-point arithmetic", "statement": "In double each coordinate of a.project(b) differs from that of the exact orthogonal projection of a on the line of b by at most 1e-15 times the length of a, whatever the direction and the length of b. The same holds for the free function vectorProjection, that the closest point functions use. Projecting the result again on b need not give the same vector.", "quantifier": "for all vectors a and all nonzero vectors b of floating-point numbers; for any rounding with relative error u below 1 the factor is 1/(1-u)^8-1, and 1/(1-u)^9-1 for vectorProjection", "why_tests_cant": "The error depends on cancellation in the dot product, which random vectors rarely show; a bound for all pairs needs the inequality of Cauchy and Schwarz.", "anchors": ["cmmcore/vec.h vec3::project", "cmmcore/vec.h CMMCORE_VEC_PROJECT", "cmmcore/vec.h vectorProjection"]}
