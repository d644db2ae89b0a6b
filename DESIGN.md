# Formal model of sth-v/cmmcore in Lean 4

The code is in `/repo/cmmcore` (C++ headers). The model is in `lean/Verif/`. It was written by reading the
headers; nothing here runs the C++ code. The tie between model and code is the citation in the comment of every
definition.

## Layout

* `Verif/Model/*.lean` — executable definitions, one file per header (or part of one). Every definition cites file and lines.
* `Verif/Spec/*.lean` — small independent specifications (what a reader needs to judge the property statements).
* `Verif/Lemmas/*.lean` — helper lemmas (not part of the claims).
* `Verif/Props/*.lean` — the property theorems, each with a non-vacuity `example` beside it.
* `MANIFEST.json` maps property ids of `properties.jsonl` to theorem names.

## Trusted base

* Lean 4.33.0's kernel. Axioms: at most `propext`, `Classical.choice`, `Quot.sound` (checked by `vcheck` and `#print axioms`).
  No axioms are added, no `sorry`, no `native_decide`, no `bv_decide`.
* The reading of the C++ code, as cited in the comments.
* Representation choices:
  * **double**: comparison-only code (KD-tree range search, AABB, BVH queries, find_span) is modelled over an arbitrary
    linear order `K`, so it covers finite doubles exactly; boxes, box trees and kd-trees are also read over doubles with NaN (`Dbl K`, C125, C126). Code with arithmetic is modelled over an
    arbitrary linearly ordered field `K` (exact arithmetic): rounding, overflow, NaN and infinities are not modelled, except
    for the next item.
  * **double with rounding**: the nearest neighbour search, box volumes, the BVH builders and queries, knot insertion, splitting and decomposition of curves, curve-curve intersection, the bounded minimiser,
    the adaptive integration and the evaluation of
    curves and surfaces are defined over `Arith K` (operations without laws, `Model/Arith`). Their theorems marked with
    `MonoArith` hold for every monotone rounding (`Rounding`, `Fp` in `Spec/Rounding`), those marked with `RelError u` for
    every rounding with relative error `u`. Binary floating point with `p` digits and rounding to nearest is an instance
    (`Rounding.float p`). Not covered: overflow, underflow, NaN, fused multiply-add and wider intermediate registers.
    Byte-level code (serialization) treats a double as its 64-bit pattern (`BitVec 64`), which covers NaN payloads.
  * **square roots**: where the code takes `sqrt`, the model takes a function parameter with the contract
    `0 ≤ x → sqrt x * sqrt x = x ∧ 0 ≤ sqrt x` (satisfied by `Real.sqrt`), or compares squares.
  * **size_t / int**: `Nat`/`Int` unless the property is about the fixed width (lengths stored in 32 bits in
    serialization.h, `size_t` lengths in memoryview.h).
  * **undefined behaviour** (out-of-bounds reads, division by zero of ints, dereferencing null) is a distinct outcome,
    and exceptions are a distinct outcome, where a property speaks about them.
  * **standard algorithms** with freedom in the standard (`nth_element`, `partition`, `sort`) are parameters with their
    standard contract, so theorems hold for every conforming library. Each contract is shown satisfiable by a concrete
    implementation.
  * pointers to objects are modelled by the values/ids they point to; ownership and deallocation are not modelled.

## Which parts of the code are modelled

| header | modelled (Lean module under `Verif/Model`) | not modelled |
|--------|--------------------------------------------|--------------|
| serialization.h | int, double, bool, vec4, vectors, curves, lists of curves (`Serialization`), file functions (`Files`) | |
| kdtree.h | build, insert, rangeSearch, nearest, size, empty (`KDTree`); nodes on the heap, `new`, `delete`, implicit copies (`KDHeap`) | printPoint |
| aabb.h | AABB: constructors, expand, merge, intersects, intersection, volume, infinity (`AABB`), the NEON and SSE2 paths (`AABBSimd`), SphericalAABB (`SphericalBox`) | |
| bvh.hpp | split, both builders, contains_point, intersect (recursive and iterative), traverse, copies, setLeft/setRight (`BVH`) | raw pointers, deallocation |
| memoryview.h | shapes, strides, indexing, slices, reshape, copy, begin/end, size, printing preview bounds, (de)serialization (`MemoryView`); who allocates and frees the memory (`MVHeap`) | — |
| nurbs_utils.h | find_span, find_multiplicity, basis_funs, curve_point, surface_point, knot insertion, knot helpers, derivative tables of curves and surfaces, rational surface derivatives, knot refinement, knot removal (`Knots`, `Curve`, `Surface`, `Derivative`, `DerivNets`, `Refine`, `Removal`) | |
| nurbs.h | NURBSCurve and NURBSSurface: constructors, interval, evaluate, insert_knot, split, subdivide, normalise, periodic, isocurves, boxes, hodograph net, derivatives, length, normals, STEP export, decompose, join, setters (`Curve`, `Surface`, `Derivative`, `CurveLength`, `SurfaceDerivative`, `Step`, `StepText`, `Decompose`), surface cross product (`SurfaceCross`), copies, moves and the cached box (`CurveObject`) | |
| matrix.h | Matrix2x2, solve2x2, MatrixD (`Matrix`) | printing |
| newthon2.h | Cholesky solve, line search, finite differences, Newton loop (`Newton`) | |
| binom.h, monomial.h | binomial table, bpmat, Monomial2D conversions and derivatives (`Monomial`) | the 3D helper templates |
| integrate.h, minimize_scalar.h | adaptive Simpson, bounded Brent search, Brent root finder (`Integrate`, `Minimize`) | |
| closest_point.h, numeric_utils.h | all overloads used by the library (`ClosestPoint`) | |
| plane.h | constructors, distances, intersections, local frames (`Plane`) | |
| gjk.h | simplex handling, support, GJK loop, closest distance (`GJK`) | |
| _convexhull/convexhull2d.h | convex_hull2d (`Hull2d`; with the effect on the argument: `Hull2dArg`) | |
| _convexhull/quickhull.hpp, convexhull.h | the class `quick_hull` for dimension 3 (`QuickHull`: affine basis, initial simplex, visibility search, facet lists, `check` up to line 961), `convex_hull3d`, `convex_hull` (`Hull3d`) | lines 962-1040 of `check`, proved unreachable for a simplex; the stored hyperplanes (recomputed from the vertices); other dimensions |
| polygon.h, separability.h | projections, SAT2D, SAT3D relative to the 3D hull, polygonRelationship2D, AABBTest, SphericalAABBTest, central projection test (`Separability`, `Hash`, `GaussMap`, `SphericalBox`) | |
| cm_hash.h, vec.h | hashes, equalities, the vector operations used elsewhere (`Hash`, `Vec`, `VecOps`), text output (`Text`) | casts between vector types |
| utils.h | vectorColumn, calc_epsilon (`Utils`), formatReal, vectorToString (`Text`) | random numbers, Timer, date and time |
| polyline.h | assemble_polylines (`Polyline`) | |
| boundary_intersection.h | extraction, sorting, duplicate removal (`Boundary`) | |
| gauss_map.h | gaussMap, class GaussMap, gaussMapSeparability (`GaussMap`) | |
| ssx.h, point_inversion.h | improve_uv, point inversion on curves and surfaces (`Ssx`), detectIntersections, findStartIntersectionPoints (`GaussMap`, with the code's own csx and hull `SsxCode`) | printing |
| ccx.h, csx.h | both recursions in full (`Ccx`, `Csx`); in `Csx` the Newton search, degeneracy and central projection tests are arbitrary functions, in `CsxCode` they are those of the code | |
| examples/cython_extension/ccx.pyx, examples/wasm/cmmcore_wasm.cpp | `pyccx`, the two conversion helpers from JavaScript arrays (`Bindings`) | the class registrations, the Cython code generator |

Everything else is not modelled: SIMD variants (the scalar fallback is
modelled; the intrinsics compute the same comparisons), the operating system below file I/O, debugging output, random numbers, timers,
the other example bindings, `newthon.h.bak`.

## Plan per property

| id | what is modelled | how it is proved |
|----|------------------|------------------|
| C01–C04 | byte-level codecs of serialization.h over `List UInt8`-like bytes with outcomes ok/UB/throw | round-trip by induction over lists; prefix-freeness as corollary; every proper prefix is UB by induction |
| C05–C07 | KD-tree as binary tree with axis tags, `nth_element` as parameter | search-tree invariant by induction over histories; queries by tree induction; C06 for every monotone rounding of the arithmetic, with a bound for the true distance of the returned point |
| C08–C10 | AABB functions, scalar path | order reasoning per axis; ring inequalities for volume, from monotone rounding alone |
| C11–C15 | builders, traversals, copy operations over trees of object ids | well-founded recursion (termination), permutation invariants, induction on trees; no law of arithmetic is used except monotony of the volume; counterexamples for C15 |
| C16–C21 | MemoryView shape/stride/offset arithmetic and its byte format | mixed-radix induction; counterexamples for negative steps, reshape of slices, size() |
| C22–C25 | find_span, knot generation/insertion/normalisation | list induction |
| C26–C30 | basis_funs loop, curve_point, knot_insertion, split | loop invariant = Cox–de Boor triangle; Boehm's identity by induction on degree; counterexamples for unequal weights |
| C31–C33 | surface_point, isocurves, surface insertion/split | tensor product lifting of the curve results |
| C34 | is_periodic, make_periodic | list reasoning |
| C35–C36 | Matrix2x2, solve2x2, MatrixD | ring/field identities; Gauss–Jordan loop invariant |
| C37–C39 | Cholesky, substitutions, line search, Newton loop, finite differences | loop invariants for every N; descent from positive definiteness |
| C40–C42 | binomial table, bpmat, Monomial2D | whole-table check lifted to all n,k; polynomial identities |
| C43–C44 | adaptive Simpson, bounded Brent search | induction on depth; loop invariant |
| C45–C51, C58, C60 | closest_point.h, plane.h, gjk.h, convexhull2d.h, polygon.h, separability.h, numeric_utils.h | ordered-field inequalities, separating functional arguments |
| C52–C53 | assemble_polylines, sort_boundary_intersections, dedup | loop invariants, permutation |
| C54 | hash functions and equalities | direct, with counterexamples where they disagree |
| C55 | csx recursion, all inner searches arbitrary functions | induction over the recursion; the u-width of a piece shrinks by a fixed amount, which bounds the depth; Bézier pieces agree with the whole (C30, C33) |
| C56 | ccx recursion with exact arithmetic | box argument for soundness and completeness; the control polygon of a Bézier piece halves, and in general the slopes of the control polygon do not grow under knot insertion, which bounds the depth |
| C57 | entity numbering of toSTEP | counting argument over sizes |
| C59 | improve_uv through the brace constructor | computation |
| C61 | sizes of encodings | list induction |
| C62–C65 | infinity boxes, bottom-up tree balance, previews, iterators | computation and tree induction |
| C66, C67 | normalise_knots, hodograph net | invariance of the basis under affine maps; index computation |
| C68 | Brent root finder | induction over the rounds |
| C69, C70 | projections and frames of planes | ordered-field identities |
| C71 | quantised keys and approximate equality | floor and rounding inequalities |
| C72 | token stream of the STEP export | structural computation for all sizes, balance by induction |
| C73 | point inversion on curves and surfaces | induction over the Newton rounds; on linear data every step is zero or throws |
| C74 | derivative tables (`ders_basis_funs`) and the curve overloads | on a knot span the curve is a polynomial per coordinate; each row of the table, for degree up to 3, is the basis of the divided-difference net; blossoms give the derivative |
| C75 | `get_derivative` as control-point differences | hodograph of a spline by induction on the blossom |
| C76 | `length`, `length_at` on top of `integrate` and the length search | congruence of the adaptive rule on its interval, C43, C68, C74 |
| C77 | finite-difference derivatives of curves and surfaces | Taylor expansion of polynomials of degree up to 4 |
| C78 | surface `normal` | cross product is perpendicular; case split of `unitize` |
| C79 | the Newton loop of C37-C39 on a quadratic | the finite differences are exact; one step contracts the error by eps/(lambda+eps); induction on the iterations |
| C80 | element access and arithmetic of `vec2`, `vec3` | field identities, Cauchy-Schwarz where a square root occurs |
| C81 | spherical conversions over the reals | argument of a complex number, `arccos` and `sin`/`cos` identities |
| C82 | the comparison operators | interval arithmetic; chain of three vectors as counterexample |
| C83 | `vec4` operations with a flag for the ARM path; bulk helpers | identities and counterexamples |
| C84 | the hash functions of C54 on 64-bit words | multiplication by odd constants, shifts and exclusive or are injective; no unit direction quantises to x = 2y |
| C85 | the outcomes of all curve and surface calls modelled | composition of outcomes; spans are at least the degree |
| C86 | `decompose` of curves and surfaces as loops of splits over the distinct knots | induction over the inner knots with the invariant that the rest is clamped at the current knot; each step is C30/C33 |
| C87 | `join` with the distance as a parameter square root | case analysis on the four end pairs; counterexample segment + parabola, the parabola bounded by the hull of its halves |
| C88 | the setters and `Surface.make` | knots regenerated exactly when the count changes; length argument for the degree |
| C89 | `gaussMap`, `class GaussMap` on top of the monomial model | C41/C42 for the product of derivatives; the control net of the result is a Bézier net, evaluated by C41_surface |
| C90 | central projection, hull of the projections, SAT2D, the four tests | central projection maps hulls to hulls (below the centre); C50 and C51; counterexamples on concrete patches |
| C91 | `detectIntersections` and `findStartIntersectionPoints` with the hull and `csx` as parameters | induction over the depth; parts keep positive weights because knot insertion is a convex combination (`InsertConvex`); boxes, C51 and C86; the u width shrinks by the split tolerance |
| C92 | `bbox` of curves and surfaces, `split`, `split_surface_u/v`, `subdivide` | knot insertion only takes convex combinations of homogeneous points (`InsertConvex`), which keep every box with positive weights; the box is the least upper bound of its points |
| C93 | `rat_surface_derivs` with its three loops | loop invariants give each entry as the solution of Leibniz's equation; that equation has one solution when the weight is not zero, and the derivatives of the quotient solve it |
| C94 | `curve_deriv_cpts` | the rows are the iterated hodographs of the blossom library; the sum of all basis functions on a span is the sum of the p+1 functions of that span; derivatives are those of Mathlib's polynomials |
| C95 | `surface_deriv_cpts` | the surface on a rectangle is a sum of products of polynomials in one variable; C94 in each direction; uniqueness of polynomials on a box; derivatives are Mathlib's `pderiv` |
| C96 | `knot_refinement` | loop invariant: the two parts already copied are those of the curve into which the knots so far have been inserted one by one; each round is one knot insertion of the blossom library; the set and halving steps by induction on lists |
| C97 | `knot_removal` | loop invariant: the two recursions recover the points before the insertion from both ends; exact description of the result; counterexamples |
| C98 | `SphericalAABB`, `SphericalAABBTest` | sorted list and largest difference by induction; square root, atan2 and 2π are parameters; counterexample over ℝ with `Complex.arg` |
| C99 | `surfaceCrossProduct`, `cross` of surfaces, `vec4::cross` | loop invariants over rows and cells; exact result; exact domain; counterexamples |
| C100 | `evaluate` of curves and surfaces with real parameters | polynomial pieces; the pieces on both sides of a knot of multiplicity m agree to order degree - m; gluing of piecewise functions |
| C101 | `set_control_points`, `evaluate` | local support and positivity of the basis functions |
| C102 | `make_periodic`, `is_periodic`, periodic constructor, `interval` | translation of a uniform spline; hodographs repeat their points too; counterexamples |
| C103 | all constructors of curves, copy, assignment, move, surface constructor from `vec3` | relation between objects kept by every call, induction on the call sequence; counterexample for moves |
| C104 | `CurveObj`: curve with cached box and all mutating calls as a transition system, `ccx` on objects | invariant: the control points lie in the box; induction on the call sequence; knot insertion is a convex combination; counterexamples |
| C105 | `splitObjects`, `splitAxes`, `findBestAxis`, `pairUp`, `mergeLoop` of the BVH model | induction on the sorted axes and on the recursion of the builder; the box of all objects is unique; bottom-up as a chain of rounds |
| C106 | `traverse`, `intersectIter`, `intersectRec` on arbitrary trees | induction on the tree, on the stack (functional induction) and on the total size |
| C107 | `convexHull`, `convexHull3d`, `convexHullPlane` (`Model/Hull3d`); the class `quick_hull` is a parameter with a contract, met by its model (C111) | planar case through C50 and an affine height; spatial case from the contract and uniqueness of first occurrences, and with Quickhull in place for small integer coordinates (`HullInteger`); counterexamples by evaluation |
| C108 | `polygonRelationship`, `pointInPolygon` of the separability model | separating axis theorem over an ordered field: the hull of the differences is a convex polygon (C50 after scaling) whose edges are parallel to edges of the two polygons; ray crossing: exactly one upward edge crosses |
| C109 | `polygonNormals`, `polygonUniqueNormals` (`Model/PolygonNormals`); whether the hash set inserts is a parameter | induction on the edges, with the part of the vector already normalised as invariant |
| C110 | `writeCurves`, `crashStates`, `readCurves`, `writeView`, `readView` (`Model/Files`): disk as map from names to bytes, stream as bytes and position, failures as parameters | reduction to C01, C04, C21, C61; induction on the operations with the invariant that the first encoding is a prefix of the file and ends before the position |
| C111 | `quickHull` (`Model/QuickHull`) under `convexHull3d` | the surface is a closed complex of triangles (`Lemmas/Polytope*`); its normals add up to zero, so a point below all planes is in the hull of four corners; corners are extreme by support planes |
| C112 | `affineBasis`, `stealBest`, `orthonormalize` | Householder reflections over an abstract square root; Gram determinants give the distances from line and plane; integrality keeps them off the tolerance |
| C113 | `facetsOf`, `simplexState`, `hullLoop`, `addPoint`, `visit`, `compactify`, `check` | invariant of the depth-first search (the part of the surface already replaced is a cone over the rim), then of the main loop; the number of points still outside falls; faces are found by a small step along the normal |
| C114 | `det2`, `det3`, `hyperplane`, `hypervolume` | pivots are quotients of integers with bounded denominators, so they are zero or above the tolerance |
| C115 | `fixedText`, `formatVec3`, `formatVec3vec`, `outputAabb`, `outputObjects`, `outputNodes` (`Model/Text`, characters) | readers in `Spec/Text`; digits read back; induction over lists and trees |
| C116 | `generalText`, `putVec2`, `putVec3`, `putVec4` | value of `%g` texts from the decimal logarithm; counting commas |
| C117 | `streamText`, `formatReal`, `vectorText` | rounding to significant digits has a bounded relative error; case analysis of the notation |
| C118 | `vectorColumn` (`Model/Utils`) | induction over the rows |
| C119 | `calcEpsilon` | binary logarithm bounds |
| C120 | `lineText`, `bodyText`, `commaText`, `kwText`, `dateText`, `fileText`, `writeStepFile` (`Model/StepText`, characters) | reader of ISO 10303-21 symbols in `Spec/StepText`; every number or literal is followed by a comma or parenthesis, by induction over the lists in parentheses; fixed texts by evaluation |
| C121 | `basisFuns`, `curvePointAt`, `surfaceSum`, `dehomog`, `evaluate` over rounded arithmetic (`Fp R`) | all intermediate numbers that are not negative carry a relative error factor (1 - u)^-k, signed ones an error relative to the weighted size; induction over the loops; Bernoulli's inequality; counterexamples by evaluation in 53-bit arithmetic |
| C122 | `intersectsSimd`, `intersectionSimd`, `mergeSimd`, `volumeSimd` (`Model/AABBSimd`): boxes in memory, accesses with an alignment | unfolding; divisibility of the addresses |
| C123 | heap of nodes, `new`/`delete`, objects and their implicit copy operations (`Model/KDHeap`); expected contents of each object (`Spec/KDHeap`) | representation relation with footprints (`Shows`), refinement of the tree model, induction over histories |
| C124 | blocks, owning flag, objects and the generated copy constructor (`Model/MVHeap`); careful programs (`Spec/MVHeap`) | invariant linking live blocks to owning views, induction over histories |
| C125 | aabb.h and bvh.hpp models read over doubles with NaN (`Model/Nan`) | inner boxes have no NaN and cover all boxes without NaN, induction over the builder; runs of the bottom-up builder for every library |
| C126 | kdtree.h model read over doubles with NaN (`Model/Nan`) | two invariants of insertion (comparison as made; order among points without NaN), induction over trees |
| C127 | the curve model read over numbers with rounding (`Spec/Rounding`) | error per level of the insertion triangle, induction over levels; evaluation of nearby control points; rounding of `alpha + (1 - alpha)` to one |
| C128 | memory as a map from objects to vectors, each assignment of the code one update (`Model/Alias`) | symbolic execution with equal and different objects, comparison with the functions without memory |
| C129 | the output object as one more argument (`Model/Reuse`) | comparison with the functions on new objects: row by row, cell by cell, induction over the accumulation loop |
| C130 | csx recursion (`Model/Csx`) with an arbitrary inner search | a common point lies in both hulls, so the boxes meet and the distance query returns the origin (C49); induction over the recursion follows the piece that holds the point |
| C131 | csx with the code's own inner functions (`Model/CsxCode`) | C55 and C38 for the reports; for a segment and a parallelogram the squared distance is a quadratic function, so C79 bounds the error of the iteration |
| C132 | the ssx search with the code's own csx and hull (`Model/SsxCode`) | invariant of the recursion (every pair is a pair of parts of the surfaces with unit weights), border curves evaluate to the surface, C55 for the hits |
| C133 | convex_hull2d with its loops on the vector itself (`Model/Hull2dArg`) | loop invariant (kept points in front, the rest unchanged); the list of farthest points is strictly ordered by angle, so its members determine it |
| C134 | length, distance, unitize with the conversion to float and sqrtf (`Model/FloatLength`) | relative error of each rounding; range of float; dyadic counterexample |
| C135 | collinear of vec3 (exact and rounded) and vec4, project of vec4 (`Model/FloatLength`) | Lagrange identity; counterexamples |
| C136 | pyccx on arrays, default knots, ccx (`Model/Bindings`) | slopes of the control polygon do not grow under knot insertion, so pieces shrink; whole knots stay clear of the halving points |
| C137 | the conversion loops of the wasm binding on vectors with previous contents (`Model/Bindings`) | induction over the loops; counterexamples |
| C138 | `find_span`, `basis_funs`, `curve_point`, `surface_point` over doubles with NaN (`Model/Nan` with `Model/Curve`, `Model/Surface`) | the loops on numbers and on NaN; which sums have a NaN operand |
| C139 | `split` and `insert_knot` over doubles with NaN | the comparisons with NaN are false; sizes of the pieces |
| C140 | `minimize_scalar_bounded` over numbers of a format with rounded operations (`Model/Minimize` is written for any arithmetic; assumptions in `Spec/Format`) | invariant of the loop with error bounds on the tolerances, the midpoint and the golden ratio; instance for 53 binary digits |
| C141 | `integrate`, `find_t1_newton` over numbers of a format with rounded operations (`Model/Integrate` is written for any arithmetic; assumptions in `Spec/Format`, `Spec/RoundingIntegrate`) | induction over the recursion with a bound on accumulated relative errors; doubling is exact, so computed midpoints lie between the ends; instance for 53 binary digits |
| C142 | `split` over numbers with rounded operations (`Model/Nurbs` is written for any arithmetic) | the knots and the spans are the same as without rounding, the control points are those of the rounded insertion (C127), and the evaluation error is the bound of C127 for lists of points; instance for 53 binary digits |
| C143 | `decompose` of curves over numbers with rounded operations (the curve part of `Model/Decompose` is written for any arithmetic) | induction over the inner knots; each split adds one factor (1-u)^(-10 degree) to the error and to the size of the points (C142), and keeps the weights at one |
| C144 | `ccx` over numbers with rounded operations (`Model/Ccx` is written for any arithmetic) | invariant of the recursion: the parts are the curves over their intervals up to a number of rounding units growing with the level (C142), their boxes hold the exact points up to that error, and the computed middle is inside; termination from the shrinking control polygons |
| C145 | the same | induction over the recursion without any law of arithmetic: splitting keeps the end control points exactly, so boxes of parts with a common end always meet; a search that finds no meeting boxes is evaluated by the kernel for the counterexample |
| C146 | `insert_knot` of surfaces over numbers with rounded operations (that part of `Model/Surface` is written for any arithmetic) | every column or row is refined as a curve is (C127), knots and spans are the same as without rounding, and a surface with weights one is a convex combination of its control points |
| C147 | `split_surface_u`, `split_surface_v` and `subdivide(umid, vmid)` over numbers with rounded operations (that part of `Model/Surface` is written for any arithmetic) | the computed test at the ends, multiplicity and cut indices are the exact ones; the parts of the refined net are compared with the parts of the exact one (C33, C146) |
| C148 | `decompose` of surfaces, in one direction and in both, over numbers with rounded operations (`Model/Decompose` is written for any arithmetic) | the distinct knots are found exactly; induction over them with C147, the bound on the coordinates and the error growing by the same factor with every split |
| C149 | `convex_hull2d` over numbers with rounded operations (`Model/Hull2d` is written for any arithmetic) | the tests on turns, heights and distances come out as in exact arithmetic: rounding errors are below the gaps; points in one direction are far enough apart because some point is off their line; a simulation carries the run over to the exact points with a sorting algorithm that does the same, and C50 and C133 apply |
| C150 | `polygonRelationship2D` over numbers with rounded operations (that part of `Model/Separability` is written for any arithmetic) | the rounded projection of a point differs from the exact one by at most 1.4e-11; the least and greatest projections are attained; a witness for the slack is evaluated in the kernel |
| C151 | `pointInPolygon2D` over numbers with rounded operations | the rounded abscissa of a crossing differs from the exact one by less than 4e-13, as the quotient of the heights is at most one; the loop takes the same branches; then C51 and C108 apply; witnesses next to an edge are evaluated in the kernel |
| C152 | `SAT2D` over numbers with rounded operations (that part of `Model/Separability` is written for any arithmetic) | dividing by the positive rounded square of the normal and rounding keep the order, so the rounded products are ordered; these differ from the exact ones by at most 1.4e-11; for the converse a gap of 5e-11 outweighs the rounding of normals, products and quotients and the tolerance with which normals are skipped; a witness for the slack is evaluated in the kernel |
| C153 | the vector operations over numbers with rounded operations | a rounded sum or product depends on the exact one only; standard error composition (`Num.Near`); lost laws are evaluated in the kernel |
| C154 | `project3` and `vectorProjection` over numbers with rounded operations (these definitions of `Model/VecOps` are written for any arithmetic; `pow(x, 2)` is `x * x` rounded once) | error composition with factors of `1/(1-u)` (`Near`, `Close`); Cauchy-Schwarz bounds the sum of absolute products; a witness is evaluated in the kernel |

Properties that the code violates are listed below, with the theorem that exhibits the violation.

## Disagreements between code and expected property

Each line names the theorem (in `Verif/Props`) that exhibits the behaviour.

* C04: no length is checked when reading; every proper prefix of an encoding is read out of bounds (`C04_every_truncation_reads_out_of_bounds`).
* C15: copying or assigning a BVH loses all objects; `setRight` overwrites the left child (`C15_copy_loses_objects`, `C15_assign_loses_objects`, `C15_setRight_overwrites_left`).
* C16: a view of rank zero has total 0 elements but `()` is accepted (`C16_rank_zero`).
* C17: slices with negative step start one past the end and never reach position 0; the length computation overflows for huge steps (`C17_negative_step_past_end`, `C17_negative_step_misses_first`, `C17_huge_step_overflows`).
* C19, C65: reshaping or iterating a sliced view ignores strides (`C19_reshape_of_slice_moves`, `C65_begin_end_of_slice`).
* C20: `size()` is 1 or does not return; `copy()` truncates (`C20_size_is_one`, `C20_size_diverges`, `C20_copy_is_truncated`).
* C21: a serialized slice describes memory outside of its buffer (`C21_slice_roundtrip_out_of_bounds`).
* C25: knots closer than the tolerance are merged when multiplicities are collected (`C25_close_knots_merged`).
* C27: the curve's own `aabb()` uses undivided coordinates and need not contain the curve (`C27_own_box_counterexample`).
* C29, C30, C32: insertion interpolates control points without weights, so curves with unequal weights change (`C29_unequal_weights_counterexample`, `C32_unequal_weights_counterexample`).
* C32: the free `extract_isocurve` with v fixed never uses the u knots (`C32_free_v_drops_knots`, `C32_free_v_counterexample`).
* C35: the nested-brace constructor of Matrix2x2 ignores its argument (`C35_brace_constructor_ignores_argument`); consequence C59: `improve_uv` always returns false (`C59_always_false`).
* C36: pivots below 1e-12 are treated as zero, so some invertible matrices throw (`C36_invertible_but_throws`).
* C38: a NaN start value makes the line search loop forever (`C38_nan_never_returns`).
* C40, C41: tables are read out of bounds above the stored size; `operator=` drops the conversion matrices (`C40_out_of_bounds`, `C41_too_large`, `C41_assign_drops_matrices`).
* C44: a first function value NaN is never replaced (`C44_first_nan`).
* C46: the ray overload returns points behind the ray start, the segment overload points off the segment, the triangle overload a difference vector (`C46_ray_counterexample`, `C46_segment_counterexample`, `C46_triangle_counterexample`).
* C47: the origin/normal constructor has the wrong sign, products are rounded to float, two planes can be reported as not intersecting (`C47_origin_normal_counterexample`, `C47_float_counterexample`, `C47_two_planes_counterexample`).
* C48: the coplanarity test ignores the fourth point (`C48_fourth_ignored`, `C48_counterexample`).
* C49: a positive GJK verdict can be wrong when the loop cycles until its limit, and the tetrahedron case keeps the wrong face (`C49_collision_counterexample`, `C49_tetrahedron_counterexample`).
* C50: small triangles are lost in the tolerance, collinear input gives no hull, the comparator can be cyclic (`C50_tolerance_counterexample`, `C50_degenerate`, `C50_comparator_counterexample`).
* C51: SAT2D separates overlapping polygons with a repeated vertex, and misses separations by edges of the second polygon (`C51_sat2d_repeated_counterexample`, `C51_sat2d_incomplete_counterexample`). SAT3D separates five points of a plane from one of them, because the hull routine keeps three points of a plane only (`C51_sat3d_plane_counterexample`).
* C52, C71: `PointKey` overflows int for coordinates beyond about 4.8e-7; the 3D equality quantises by 15 instead of 10^15 (`C52_range_counterexample`, `C71_point_key_range`, `C71_decimals_counterexample`).
* C53: boundary curves with fixed v lose the knots of the surface (`C53_v_boundary_counterexample`).
* C55: an intersection found at an end of a curve piece ends the search with an exception (`C55_found_at_end_throws`); a positive test of the first curve part skips the surface part for the second as well (`C55_first_part_decides`).
* C56: crossings of weighted curves are missed, a tolerance that is not positive never ends normally, intervals too narrow to split throw (`C56_weighted_counterexample`, `C56_needs_positive_tolerance`, `C56_too_narrow_throws`).
* C58: for parallel lines the distance of the start points is reported (`C58_parallel`).
* C59: negatively oriented tangents are refused even by the intended selection (`C59_orientation_counterexample`).
* C62: `is_infinity` is never true (`C62_infinity_never_true`).
* C64: the preview of a matrix reads outside of the view (`C64_preview_out_of_bounds`).
* C67: the hodograph surface has recorded size zero, and for equal weights it divides by zero weights (`C67_size_lost`, `C67_equal_weights_unusable`).
* C70: `signedDistance` is off by w/|n| (`C70_signed_distance_counterexample`), and frames of three points need not be orthonormal (`C70_three_points_counterexample`).
* C72: exported surfaces lack a closing parenthesis, refer to entities of the wrong kind, and their edges do not run along their curves (`C72_unbalanced_counterexample`, `C72_kinds_counterexample`, `C72_edges_counterexample`).
* C73: point inversion never moves on lines and planes (`C73_line_never_moves`, `C73_plane_never_moves`).
* C74: derivatives ignore the weights (`C74_unequal_weights_counterexample`), throw for degree 4 and more (`C74_high_degree_throws`), and read past the end for too many orders (`C74_too_many_undefined`).
* C75: `get_derivative` is wrong unless all weights are one (`C75_equal_weights_counterexample`).
* C76: lengths of weighted curves are wrong (`C76_unequal_weights_counterexample`) and curves of degree 4 and more have none (`C76_high_degree_throws`).
* C77: `second_derivative_fdm` returns the first derivative (`C77_second_is_first`, `C77_second_derivative_counterexample`).
* C78: a short normal is not scaled to length one (`C78_short_normal_counterexample`).
* C82: vector equality is not transitive and ignores the weight of `vec4` (`C82_not_transitive_counterexample`, `C82_meaning`).
* C83: `vec4` products depend on the platform and leave stale weights (`C83_vec4_counterexamples`), `dist` is wrong (`C83_dist_counterexample`), `dot_products` writes out of bounds (`C83_dot_products_undefined`). On x86-64 `dot_product` names a type that does not exist.
* C84: the hash of a pair ignores its second number (`C84_pair_counterexample`); all directions have the same hash (`C84_normal_counterexample`).
* C86: `decompose` of a periodic (unclamped) curve splits outside the domain and returns wrong and invalid pieces (`C86_periodic_counterexample`).
* C87: `join` changes the shape of the curves (`C87_shape_counterexample`) and takes open weighted curves for closed ones (`C87_closing_counterexample`).
* C88: `set_degree` leaves an inconsistent curve (`C88_set_degree_counterexample`, `C88_set_degree_example_counterexample`); `get_control_points3d` divides undivided positions by the weight (`C88_points3d_counterexample`).
* C90: `gaussMapSeparability` is true for overlapping coplanar rectangles, because `unit()` leaves vectors shorter than one unscaled (`C90_scaled_counterexample`); for patches with parallel normals because hulls of unit vectors are compared and not the cones (`C90_cone_counterexample`); and for equal normals because the hull of collinear points is replaced by one of them (`C90_collinear_counterexample`).
* C91: `detectIntersections` drops pairs whose boxes overlap in a flat box (`C91_crossing_counterexample`: two unit squares crossing at a right angle) or in a volume below the length tolerance (`C91_volume_counterexample`).
* C95: `surface_deriv_cpts` copies the points `ss[0]..ss[1]` to the front of `temp_cpts_v` and then asks `curve_deriv_cpts` for the range from `ss[0]`, so with `ss[0] > 0` the derivatives in the second direction come from the wrong points (`C95_range_counterexample`).
* C96: `knot_refinement` does not check its parameters: one beyond the last knot makes it write past the end of the new control points (`C96_beyond_end`), one before the domain gives knots that are not sorted (`C96_before_start_counterexample`).
* C97: `knot_removal` has no loop that moves the later control points up before the resize, so the last points are dropped instead of the removed ones (`C97_roundtrip_counterexample`); it shrinks the vector even if the tolerance test fails (`C97_not_removable_counterexample`); its loop runs while `j - i >= t` instead of `j - i > t`, so for even differences the tolerance test compares a point with itself; in the first knot span it reads before the vector (`C97_first_span_undefined`).
* C98: `find_smallest_wedge` stores the angle after the start as the end instead of the last angle, so points of sets with more than two angles fall outside (`C98_wedge_counterexample`, `C98_end_is_next`); `separable` compares starts and ends as if no wedge crossed the angle π and so separates sets that share a direction (`C98_separation_counterexample`); `SphericalAABBTest` of an empty set reads an empty vector (`C98_outcome`).
* C99: `surfaceCrossProduct` reads `b` at `[j][k]` (`C99_cells_counterexample`, `C99_nonsquare_counterexample`), uses the wrong `vec4::cross` (`C99_point_counterexample`, `C99_point_iff`), leaves the size of the result unset (`C99_result_partial`, `C99_size_kept`) and relies on the row lengths of a reused result (`C99_reused_counterexample`).
* C102: `interval()` of a periodic curve is `[first knot, last knot]`, outside the range in which the curve is defined and closed (`C102_interval_counterexample`); `is_periodic` looks at the control points only, so a clamped curve with repeated points is reported periodic and `make_periodic` leaves it open (`C102_open_counterexample`).
* C103: the move constructor does not move `_periodic` (`C103_moved_counterexample`).
* C104: `set_control_points` does not rebuild the cached box that `ccx` relies on (`C104_stale_counterexample`); `get_derivative` and the constructor from a size leave the empty box (`C104_unbuilt_counterexample`); the `_aabb` of a surface is never assigned (`C104_surface_counterexample`).
* C107: `convex_hull` of points in one plane takes the hull of their x and y only: the corners of a vertical square give no vertices at all and the answer VOLUME (`C107_counterexample`).
* C107: the kind is read off the number of vertices, so a horizontal square is VOLUME; a polygon of three points is FLAT.
* C107: up to four points always count as coplanar, so a tetrahedron loses its apex if that lies over its base, and is answered FLAT.
* C107: points already in the output vector stay in it and count for the kind (`C107_output_kept_counterexample`).
* C108: for polygons that are not convex the relationship is that of their hulls: a square in the notch of a polygon is said to intersect it (`C108_notch_counterexample`).
* C109: with `normalize`, `polygonNormals` normalises the elements `0, 1, ...` of the vector, so in a vector that is not empty it normalises the old elements and leaves the new ones as they are (`C109_reuse_counterexample`).
* C110: `writeNURBSCurvesToFile` asks `good()` before the stream is closed, so bytes still buffered can get lost although the answer is `true` (`C110_late_failure_counterexample`).
* C110: the file is truncated before the new bytes arrive; a crash in between destroys the old curves and leaves a file whose reading is undefined behaviour (`C110_crash_loses_file_counterexample`).
* C110: an interrupted `write_to_file` over a view of the same shape is read as a valid view with new and old data mixed (`C110_view_torn_counterexample`). `read_from_file` always reads the first view of the file (`C110_view_history`).
* C111, C113: the member `lower_dimensional_hull_` of `quick_hull` is never initialised, so `create_convex_hull` reads an indeterminate value; if it is `true` the algorithm stops after the initial tetrahedron (`C111_flag_counterexample`).
* C111: for five or more points of a plane or a line `convex_hull3d` replaces the output by the affine basis, which need not contain the extreme points (`C111_plane_counterexample`).
* C111: the volume of the first four points is compared with the machine epsilon without regard to scale; small sets have no hull at all (`C111_small_counterexample`).
* C115: `output_bvh_nodes` does not tell a left child from a right child if there is only one (`C115_one_child_counterexample`); printed lists end with a comma before the bracket (`C115_comma`).
* C116: `operator<<` of `vec3` and `vec4` leaves out separators, so `(1,2,34)` and `(1,23,4)` are both written `[1,234]` (`C116_ambiguous_counterexample`, `C116_vec3_counterexample`).
* C117: STEP numbers have six significant digits only, whole numbers lack the decimal point and large ones have a lower-case exponent, so they are not REAL tokens (`C117_precision_counterexample`, `C117_whole_counterexample`).
* C118: `vectorColumn` sizes its output by the number of columns instead of rows; tall matrices are written out of bounds (`C118_tall_counterexample`).
* C119: below 1e-12 `calc_epsilon` returns the smallest positive double, which is lost when it is added to the number (`C119_small_counterexample`).
* C120: a control point with weight zero is exported as `nan` or `inf`, which makes the whole file unreadable (`C120_zero_weight_counterexample`); the offset in the time stamp is `+0000`, not `+00:00` as the comment in the code says (`C120_time`).
* C121: in floating point a clamped curve with weights 0.1 misses its first control point by a unit in the last place (`C121_end_point_counterexample`), and a constant curve leaves the box of its control points (`C121_box_counterexample`).
* C122: the x86-64 path reads and writes `max` with `_mm_load_pd`/`_mm_store_pd`, which need 16-byte alignment, but `max` lies 24 bytes after the 16-byte aligned start of the box; `intersects`, `intersection`, `merge` and `volume` are undefined there for all boxes (`C122_x86_counterexample`).
* C123: `KDTree` has a destructor that deletes its nodes but no copy operations of its own: copying a non-empty tree and destroying both deletes the nodes twice, assigning leaks the old nodes (`C123_copy_counterexample`, `C123_assign_counterexample`). If memory runs out, `build` leaves a pointer to the deleted tree and `insert` counts a point that is not stored (`C123_build_failure_counterexample`, `C123_insert_failure_counterexample`).
* C124: the block `deserialize` allocates is never freed, as the view it returns does not manage it (`C124_deserialize_counterexample`); the generated copy constructor copies `is_managed_`, so that two views free the same block (`C124_duplicate_counterexample`).
* C125: in a tree built bottom-up an object with one NaN bound makes the boxes above it NaN and hides its neighbours (`C125_bottom_up_counterexample`); the box of points that begin with a NaN contains nothing (`C125_points_counterexample`).
* C126: a NaN coordinate in the first point inserted makes every range search empty (`C126_range_counterexample`) and every nearest neighbour that point (`C126_nearest_counterexample`).
* C128: `a.cross(b, a)`, `a.cross(b, b)`, `vectorProjection(a, b, b)`, `cartesian_to_spherical(p, p)` and the closest points on a ray, line or segment written into its start read coordinates that they have already overwritten (`C128_cross_counterexample`, `C128_projection_counterexample`, `C128_start_counterexample`, `C128_direction_counterexample`, `C128_segments_counterexample`, `C128_toSpherical_counterexample`).
* C128: `c.get_derivative(c)` resizes the control points and knots of `c` before it reads them: wrong for lines and short polylines, out-of-range reads for every curve with six or more knots (`C128_self_derivative_counterexample`, `C128_self_derivative_undefined`).
* C129: `compute_partial_derivative`, `cross` and `to_bezier` resize the outer vector of the output only: rows that exist keep their lengths, tails and weights, and `cross` adds to their cells (`C129_partial_derivative_counterexample`, `C129_cross_counterexample`, `C129_to_bezier_partial`, `C129_to_bezier_counterexample`).
* C129: `GaussMap::build` on an object that was built before with another number of columns is undefined, up to one case (`C129_rebuild_counterexample`).
* C129: `NURBSSurface::get_derivative(direction, result)` leaves `_size` of the result, so a surface differentiated into itself has a size its net does not cover (`C129_derivative_net_counterexample`).
* C130: the separation tests divide the control points of the curve by their weights, which gives no hull of the curve; a curve with weights 2 through the middle of a square is never found (`C130_weights_counterexample`).
* C132: a border with fixed v is extracted with the interval [0, 1], and its parameter is stored as the u of the surface; for a patch over [0, 2] the surface at the stored parameters is far from the stored point (`C132_stored_u_counterexample`).
* C134: vec3::length uses sqrtf: single precision only, zero for points nearer than 2^-76, infinity beyond 2^64 (`C134_precision_counterexample`, `C134_underflow`, `C134_overflow`).
* C135: a vector shorter than one is not collinear with itself, nor is any vec4 point with weight one , and with NEON points on different axes are collinear (`C135_short`, `C135_vec4`, `C135_vec4_axes`, `C135_rounded_counterexample`).
* C136: narrow arrays and too few rows are undefined behaviour, tolerance zero ends the process (`C136_undefined`, `C136_zero_tolerance_counterexample`).
* C137: rows of a reused net are not resized (`C137_reused_net_counterexample`, `C137_stale_and_ragged_counterexample`).
* C139: `split(NaN)` and `insert_knot(NaN, n)` are accepted and return unusable curves (`C139_split_counterexample`, `C139_insert_counterexample`).
* C145: `ccx` misses crossings of curves in a common plane (cmmcore/ccx.h 92-120): knot insertion computes `a * alpha + b * (1 - alpha)`, which for equal coordinates a = b = 0.9 need not be 0.9, so the flat boxes of the parts no longer touch. Two straight lines in the plane z = 0.9 crossing in the middle give an empty list (C145_missed_counterexample).
* C131: `csx` reports nothing for a surface whose parameter intervals are shorter than the tolerance (cmmcore/csx.h 66-68, 82-83, 222-226): the tolerance computed from the curve is used for the parameters of the surface too. For every tolerance there is a unit square, parametrised over a short interval, which an upright unit segment crosses in the middle, with an empty answer (C131_short_domain_counterexample).
* C149: with coordinates around 10^8 the products of `orientation` are rounded by more than the triangle's area: the hull of three points that are not on a line comes out empty (C149_large_counterexample).
* C150: in `double` two triangles that meet (a corner of one is the middle of an edge of the other) are reported as DISTANCE (C150_meet_counterexample), and two triangles that only touch are reported as INTERSECT (C150_touch_counterexample).
* C151: in `double` `pointInPolygon2D` reports a point outside a triangle as inside, and a point of the interior of a triangle as outside, when the point is next to an edge (C151_outside_counterexample, C151_interior_counterexample).
* C152: in `double` `SAT2D` reports two triangles that meet (a corner of one is the middle of an edge of the other) as separated (C152_meet_counterexample).
* C153: in `double` `a.dot(a.cross(b))` need not be zero (C153_orthogonal_counterexample).
* C154: in `double` projecting twice differs from projecting once (C154_again_counterexample).
