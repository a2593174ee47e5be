#!/usr/bin/env python3
"""Writes ../properties.jsonl from the table below (one JSON object per line)."""
import json, os
P = []
def p(id, title, statement, quantifier, why, *anchors):
    P.append(dict(id=id, title=title, statement=statement, quantifier=quantifier,
                  why_tests_cant=why, anchors=list(anchors)))
I = "include/ftk/"

# ---- union-find family
p("C01", "union_find answers connectivity exactly",
  "After any history of add(i) and unite(i,j) on added elements, same_set(i,j) returns true exactly when i and j are linked by a chain of united pairs, and the histories never hit a missing element.",
  "all element types, all finite histories of add / unite / find / same_set calls, in any order",
  "A test runs a few histories; the wrong answer of a union-by-size/path-compression structure appears only for particular tree shapes reached by particular histories.",
  I+"basic/union_find.hh: union_find::add, unite, find, same_set")
p("C02", "union_find::find terminates, returns a canonical member and is observationally pure",
  "find(i) on an added element terminates, returns a member of i's set which is a fixed point of find, returns the same value for two elements iff they are in the same set, and path compression performed by find changes no later answer.",
  "all reachable union-find states, all elements",
  "The compression loop writes through a reference aliasing parent(i0); whether this can loop or corrupt another set depends on every tree shape.",
  I+"basic/union_find.hh: union_find::find, parent")
p("C03", "union_find::get_sets is the partition",
  "get_sets() returns every added element in exactly one set; two elements are in the same returned set iff same_set; no returned set is empty.",
  "all reachable union-find states",
  "Quantifies over every partition reachable by any history.",
  I+"basic/union_find.hh: union_find::get_sets")
p("C04", "simple_union_find answers connectivity exactly",
  "For a simple_union_find(n), after any sequence of unite/find/same_set with indices below n, same_set(i,j) is true exactly when i and j are connected by united pairs; an index >= n is undefined behaviour.",
  "all n, all histories over indices < n",
  "Same as C01; path halving plus union by size produce shapes no finite test enumerates.",
  I+"basic/simple_union_find.hh: simple_union_find::unite, find, same_set")
p("C05", "duf used sequentially: representative is the least member of the component",
  "After any sequential history of unite/find, find(i) returns the smallest element connected to i by united pairs, so the result does not depend on the order of the unite calls.",
  "all sequential histories, all linearly ordered element types",
  "Order independence ranges over all permutations of all unite lists.",
  I+"basic/duf.hh: duf::unite, duf::find, duf::get_roots")
p("C06", "duf under concurrent unite calls",
  "Under every interleaving of concurrent unite calls, the parent links stay acyclic (every find terminates) and two elements end in one component only if united pairs connect them; and if they are connected by united pairs they end in one component.",
  "all numbers of threads, all interleavings of the find/lock/link steps of unite",
  "A lost update needs a precise interleaving of two threads between find and the locked write.",
  I+"basic/duf.hh: duf::unite, duf::find (std::lock_guard)", I+"filters/critical_point_tracker.hh: trace_critical_points_offline")
# ---- scheduling
p("C07", "parallel_for runs every task exactly once",
  "parallel_for(ntasks, nthreads, f) with ntasks >= 0 and nthreads >= 1 invokes f(i) exactly once for each 0 <= i < ntasks, whatever the number of threads and interleaving.",
  "all ntasks, all nthreads >= 1, all interleavings of the workers",
  "Quantifies over all task and thread counts and schedules.",
  I+"object.hh: object::parallel_for")
# ---- lattice
p("C08", "lattice integer indexing is a bijection",
  "For a lattice with positive sizes and arbitrary starts, to_integer and from_integer are mutually inverse between the lattice's points and [0, n()).",
  "all dimensions, all starts, all positive sizes, all points / all indices",
  "Mixed-radix arithmetic must be right for every size vector.",
  I+"mesh/lattice.hh: lattice::reshape, to_integer, from_integer, n, contains")
p("C09", "lattice partition cores tile the domain",
  "When partition(np, given, ghosts) produces cores at all, it produces exactly np of them, they are pairwise disjoint, non-empty, lie in the lattice and their union is the whole lattice.",
  "all lattices, all np >= 1, all given vectors",
  "Uneven remainders interact with the recursive slicing in all dimensions.",
  I+"mesh/lattice_partitioner.hh: lattice_partitioner::partition, prime_factorization")
p("C10", "partition extents contain cores and stay in the domain",
  "Every ghost extent contains its core, is contained in the lattice, and contains every lattice point within the ghost width of the core.",
  "all lattices, cores and ghost widths",
  "Clamping at each boundary must be right for every offset.",
  I+"mesh/lattice_partitioner.hh: add_ghost, get_ext, get_core")
p("C11", "prime_factorization is a prime factorization",
  "For n >= 1, prime_factorization(n) returns primes in decreasing order whose product is n.",
  "all n >= 1",
  "Quantifies over all n.",
  I+"mesh/lattice_partitioner.hh: prime_factorization")
# ---- regular simplicial mesh
p("C12", "simplicial mesh element ids round-trip",
  "to_integer followed by from_integer is the identity on valid mesh elements and distinct elements get distinct integers.",
  "all mesh bounds in all dimensions, all element dimensions, all types",
  "Ids are the keys of all distributed maps; one collision anywhere corrupts tracking.",
  I+"mesh/simplicial_regular_mesh.hh: simplicial_regular_mesh_element::to_integer, from_integer")
p("C13", "element_for enumerates every element exactly once",
  "element_for over a lattice and scope invokes the callback exactly once for every (corner, type) with the corner in the lattice and the type in the scope's table.",
  "all lattices, all element dimensions, all scopes, all thread counts",
  "Ranges over all lattices and schedules.",
  I+"mesh/simplicial_regular_mesh.hh: element_for, from_work_index", I+"object.hh: parallel_for")
p("C14", "sides and side_of are dual",
  "For every element e of dimension d, f is among e.sides iff e is among f.side_of.",
  "all mesh dimensions, all element dimensions, all corners and types",
  "Incidence duality is what makes tracing complete; it ranges over all simplex types of all dimensions.",
  I+"mesh/simplicial_regular_mesh.hh: sides, side_of, enumerate_unit_simplex_sides, enumerate_unit_simplex_side_of")
p("C15", "unit cube subdivision is the Kuhn triangulation",
  "subdivide_unit_cube(n) returns n! simplices, each a chain of n+1 cube vertices from 0...0 to 1...1 raising one coordinate at a time, all distinct and including every such chain.",
  "all n",
  "Recursive construction; holds for all n, tests check n <= 4.",
  I+"mesh/simplicial_regular_mesh.hh: subdivide_unit_cube")
p("C16", "ordinal and interval types partition all types",
  "For each dimension, every element type is exactly one of ordinal or interval; an ordinal element has all its vertices in one timestep, an interval element spans exactly two consecutive ones.",
  "all mesh dimensions, all element dimensions and types",
  "Ranges over all types of all dimensions.",
  I+"mesh/simplicial_regular_mesh.hh: derive_ordinal_and_interval, vertices")
# ---- algorithms
p("C17", "bfs visits exactly the reachable nodes, once each",
  "bfs calls the visitor exactly once for the seed and for each node reachable through accepted nodes, and for no other, and terminates on finite graphs.",
  "all finite graphs, seeds, acceptance criteria",
  "Ranges over all graphs.",
  I+"algorithms/bfs.hh: bfs")
p("C18", "extract_connected_components returns the components of the qualified set",
  "Two qualified elements are in the same returned component iff they are linked by a path of qualified neighbors; every qualified element appears in exactly one component.",
  "all finite qualified sets and symmetric neighbor functions",
  "Ranges over all graphs.",
  I+"algorithms/cca.hh: extract_connected_components", I+"algorithms/cca_bfs.hh")
p("C19", "Hoshen-Kopelman labelling",
  "After hoshen_kopelman_2d on an m x n 0/1 image: zero cells stay zero, two non-zero cells get equal labels iff 4-connected, the labels are exactly 1..count, and no access is out of bounds.",
  "all image sizes and contents",
  "The equivalence table is sized nelem/2, which is only wrong for particular contents.",
  I+"algorithms/hoshen_kopelman.hh: hoshen_kopelman_2d, uf_find, uf_union, uf_make_set")
p("C20", "dijkstra returns a shortest path",
  "dijkstra returns a path from source to destination of minimum total weight whenever one exists, for non-negative weights.",
  "all finite graphs with non-negative weights",
  "Ranges over all graphs and weights.",
  I+"algorithms/dijkstra.hh: dijkstra")
p("C21", "connected components decompose into simple curves",
  "connected_component_to_linear_components returns simple curves whose consecutive nodes are adjacent; every node with at most two neighbors (in the component, non-special) is in exactly one curve; nodes of degree above two are in none.",
  "all finite graphs with symmetric adjacency",
  "Ranges over all graph shapes including loops and branch points.",
  I+"geometry/cc2curves.hh: connected_component_to_linear_components, is_loop")
# ---- tracking graph
p("C22", "tracking-graph event type matches the number of in and out features",
  "An event is birth, death, merge, split, compound exactly according to how many left and right features it has.",
  "all event cardinalities",
  "Ranges over all cardinalities.",
  I+"tracking_graph/event.hh: event::type")
# ---- feature curves
p("C23", "adjust_time makes time monotone and only moves interval points",
  "After adjust_time the times of the curve's points are monotone in the curve's direction whenever the ordinal points were, and ordinal points keep their time.",
  "all curves",
  "Ranges over all point sequences.",
  I+"features/feature_curve.hh: adjust_time")
p("C24", "split keeps every point and separates types",
  "split returns sub-curves each of one type, in order, whose concatenation is the original curve.",
  "all curves",
  "Loss of a point at a segment boundary is invisible unless the right type sequence is tested.",
  I+"features/feature_curve.hh: split")
p("C25", "intercept returns exactly the points of the time window",
  "intercept(t0,t1) returns, in order, exactly the points whose time lies in the window, and nothing when the curve's time range does not meet the window.",
  "all curves and windows",
  "Boundaries and empty curves.",
  I+"features/feature_curve.hh: intercept")
p("C26", "rotate and reorder only permute the points",
  "rotate keeps the cyclic order of a loop and leaves a non-loop unchanged; reorder returns the same points in the same or reversed order with non-decreasing end times.",
  "all curves",
  "Ranges over all curves.",
  I+"features/feature_curve.hh: rotate, reorder")
p("C27", "curve statistics bound every point",
  "After update_statistics every point's scalar values, coordinates and times lie between the recorded minima and maxima, the bounds are attained, and the consistent type is the common type or 0 if types differ.",
  "all non-empty curves",
  "Ranges over all curves.",
  I+"features/feature_curve.hh: update_statistics")
p("C28", "feature_curve_set ids stay unique and labelled",
  "After any sequence of add calls without an explicit label, ids are pairwise distinct, each curve and all its points carry its key as id.",
  "all add histories",
  "Ranges over all histories.",
  I+"features/feature_curve_set.hh: add, get_new_id, relabel")
# ---- numeric predicates
p("C29", "robust orientation sign is never zero and antisymmetric",
  "The robust orientation sign (dimensions 1, 2, 3) is always 1 or -1, never 0, and permuting the vertices together with their (distinct) indices multiplies it by the parity of the permutation.",
  "all integer coordinates, all distinct index tuples, all permutations",
  "Degenerate inputs are measure-zero and never hit by random tests.",
  I+"numeric/sign_det.hh: robust_sign_det2, robust_sign_det3, robust_sign_det4, nswaps_bubble_sort, positive1, positive2, positive3")
p("C30", "simulation of simplicity is the limit of a real perturbation",
  "There is one perturbation of all vertices (depending only on vertex index and coordinate number) such that for all sufficiently small positive parameters the robust sign is the sign of the determinant of the perturbed points, and robust_smaller compares the perturbed coordinates; in particular the robust sign is the true sign when the determinant is non-zero.",
  "all integer coordinates, all distinct index tuples, dimensions 1, 2, 3",
  "A limit statement over all inputs.",
  I+"numeric/sign_det.hh: positive1, positive2, positive3, robust_sign_det2, robust_sign_det3, robust_sign_det4, robust_smaller")
p("C31", "point-in-simplex is containment in the perturbed simplex, whatever the vertex order",
  "robust_point_in_simplex1/2/3 answers yes iff the perturbed point is strictly inside the perturbed simplex for all sufficiently small perturbations; hence the answer is the same for every ordering of the simplex's vertices (with indices permuted alike).",
  "all integer coordinates, all distinct indices, all permutations",
  "Ranges over all degenerate configurations.",
  I+"numeric/sign_det.hh: robust_point_in_simplex1, robust_point_in_simplex2, robust_point_in_simplex3",I+"numeric/critical_point_test.hh")
p("C32", "every space-time cell is punctured in no facet or in exactly two",
  "For a triangle with scalar values, a tetrahedron with 2-vectors or a 4-simplex with 3-vectors at its vertices, the robust test reports a critical point in none or in exactly two of its facets, so a trajectory enters and leaves each cell once.",
  "all integer vectors incl. all degenerate configurations, all distinct vertex indices",
  "Ranges over all degenerate configurations.",
  I+"numeric/sign_det.hh: robust_point_in_simplex1, robust_point_in_simplex2, robust_point_in_simplex3",I+"numeric/critical_point_test.hh")
p("C33", "determinant, adjugate and inverse identities",
  "det2/3/4 are the determinant; adjugate times matrix is the determinant times identity; the solvers built on them return a solution whenever the determinant is non-zero.",
  "all matrices over a commutative ring (real arithmetic, no rounding)",
  "Polynomial identities over all entries.",
  I+"numeric/det.hh", I+"numeric/adjugate.hh", I+"numeric/matrix_inverse.hh", I+"numeric/linear_solver.hh")
p("C34", "rational_number arithmetic is field arithmetic",
  "+, -, *, /, comparison and compound assignments of rational_number return the value of the corresponding rational operation for non-zero denominators.",
  "all numerators and non-zero denominators",
  "Ranges over all pairs.",
  I+"numeric/rational_number.hh", I+"numeric/gcd.hh")
p("C35", "interval and disjoint-interval operations match set semantics",
  "contains, overlaps, join and intersect of basic_interval and disjoint_intervals agree with membership of points in the denoted sets.",
  "all endpoints, open/closed flags and histories",
  "Boundary flags interact in many combinations with arbitrary insert histories.",
  I+"numeric/basic_interval.hh", I+"numeric/disjoint_intervals.hh")
p("C36", "polynomial routines are polynomial arithmetic",
  "Evaluating the result of polynomial addition, subtraction, multiplication, scalar product and derivative at any x equals the corresponding combination of evaluated operands.",
  "all coefficient arrays of all degrees, all x",
  "Ranges over all degrees.",
  I+"numeric/polynomial.hh")
p("C37", "critical point classification follows the Jacobian",
  "critical_point_type_2d/3d returns each type exactly when the eigenvalue signs of the Jacobian are the defining ones.",
  "all Jacobians",
  "Boundary cases of the real classification.",
  I+"numeric/critical_point_type.hh")
# ---- ndarray
p("C38", "ndarray indexing is a bijection and stays in bounds",
  "After reshape, index() maps valid multi-indices one-to-one onto [0, nelem()); element access with valid indices never leaves the buffer, and a value written at one multi-index is read back there and changes no other.",
  "all shapes, all indices",
  "Ranges over all shapes.",
  I+"ndarray/ndarray_base.hh: reshapef, index, nelem", I+"ndarray.hh: reshapef, at")
p("C39", "transpose reverses indices and is an involution",
  "get_transpose(a)(i1..in) = a(in..i1) and transposing twice gives back the array.",
  "all shapes with nd <= 4, all contents",
  "Ranges over all shapes.",
  I+"ndarray.hh: get_transpose")
p("C40", "slice, slice_time and stack are consistent",
  "slice(lattice) holds at each index the value of the source at start+index; slice_time(i) of a stack of arrays gives back the i-th array.",
  "all shapes and sub-ranges",
  "Ranges over all shapes.",
  I+"ndarray.hh: slice, slice_time, concat, stack")
p("C41", "serialization round-trips",
  "Loading what was saved gives back the same ndarray / feature point / mesh element / containers, consuming exactly the bytes written, so consecutive saves load in order.",
  "all values, all sequences of saved values",
  "Ranges over all values and nestings.",
  I+"external/diy/serialization.hpp", I+"ndarray.hh: Serialization", I+"features/feature_point.hh", I+"mesh/simplicial_regular_mesh.hh", I+"utils/serialization.hh")
p("C42", "min_max returns the extreme values",
  "min_max() returns values that are attained in the array and bound all its elements.",
  "all non-empty arrays",
  "Wrong initialisation shows only for all-negative floating data.",
  I+"ndarray.hh: min_max, maxabs, resolution")
p("C43", "multilinear interpolation",
  "mlerp at an integer lattice position returns the stored value, stays between the min and max of the cell's corners, never reads out of bounds, and returns false outside.",
  "all shapes and positions",
  "Ranges over all positions including boundary.",
  I+"ndarray.hh: mlerp")
# ---- streaming
p("C44", "streaming filter equals batch convolution with clamped ends",
  "The streaming filter calls back exactly once per pushed timestep, in order, with the convolution of the whole series with clamped ends.",
  "all series lengths and kernel sizes",
  "Short series and end handling.",
  I+"filters/streaming_filter.hh: push, finish, get, ready")
# ---- communication
p("C45", "gather merges all ranks' maps without loss",
  "After gather at the root the root's map contains a key iff some rank had it, with a value that some rank had for it (the root's own if it has one).",
  "all numbers of ranks, all maps",
  "Ranges over all distributions.",
  I+"utils/gather.hh")
p("C46", "redistribute sends every item to exactly one rank by key",
  "After redistribute each item is at the rank chosen by its key's hash, no item is lost and all items with the same key meet on one rank.",
  "all numbers of ranks, all distributions",
  "Ranges over all distributions.",
  I+"utils/redistribution.hh")
# ---- trackers
p("C47", "tracker time loop processes each timestep and interval exactly once",
  "When driven by push/advance for T timesteps, ordinal elements of every timestep and interval elements of every consecutive pair are processed exactly once, always with the right two snapshots.",
  "all numbers of timesteps, all push patterns",
  "Ranges over all drive sequences.",
  I+"filters/critical_point_tracker.hh: advance_timestep, push_snapshot, pop_snapshot", I+"filters/critical_point_tracker_2d_regular.hh: update_timestep, simplex_vectors", I+"filters/tracker.hh")
p("C48", "online tracing neither loses nor duplicates critical points",
  "Through trace_critical_points_online each discrete critical point is added to exactly one trajectory or dropped only when its component yields no curve, and completed trajectories never change again.",
  "all sequences of discrete critical point sets",
  "Ranges over all histories.",
  I+"filters/critical_point_tracker.hh: grow_trajectories / trace_critical_points_online")
# ---- kd-tree
p("C49", "kd-tree nearest neighbour is exact",
  "After build, find_nearest(x) returns the index of a point whose distance to x is minimal, equal to the naive search's distance.",
  "all dimensions, all non-empty point sets, all queries",
  "Pruning errors appear only for particular geometry.",
  I+"basic/kd.hh: build, build_recursive, find_nearest, find_nearest_recursive, find_nearest_naive")
# ---- contour tree
p("C50", "contour tree links stay symmetric and reduce only removes non-saddle nodes",
  "After any sequence of add_node/add_arc/reduce_node, u is an upper link of l iff l is a lower link of u, and reduce keeps exactly leaves and branch nodes.",
  "all histories",
  "Ranges over all histories.",
  I+"basic/contour_tree.hh: add_arc, reduce_node, reduce")
# ---- extruded mesh
p("C51", "extruded mesh ids decode and encode consistently",
  "For every integer id (any timestep) of a d-simplex of the extruded mesh, find_simplex(get_simplex(id)) = id, and every d-simplex id of a timestep lies in that timestep's id range.",
  "all base meshes, all ids",
  "Ranges over all base meshes.",
  I+"mesh/simplicial_unstructured_extruded_2d_mesh_implicit.hh: get_simplex, find_simplex, n, simplex_type")
p("C52", "extruded mesh sides and side_of are dual",
  "For extruded meshes, triangle f is a side of tetrahedron e iff e is in side_of(f).",
  "all base triangulations and all ids",
  "The library itself carries a runtime debug check for it, which covers only one mesh.",
  I+"mesh/simplicial_unstructured_extruded_2d_mesh_implicit.hh: sides, side_of")
# ---- misc numeric
p("C53", "fixed_point arithmetic",
  "Conversion, addition, subtraction, multiplication and division of fixed_point agree with integer arithmetic on scaled values (up to truncation).",
  "all values within range",
  "Ranges over all values.",
  I+"numeric/fixed_point.hh")
p("C54", "linear interpolation solvers invert interpolation",
  "inverse_lerp_s1v1/s2v2/s3v3 return weights that sum to one and interpolate the vertex vectors to zero whenever the system is non-singular, and report success only if all weights lie in [0,1].",
  "all vertex vectors",
  "Ranges over all inputs.",
  I+"numeric/inverse_linear_interpolation_solver.hh", I+"numeric/linear_interpolation.hh")
p("C55", "all2all exchange delivers every rank's data",
  "After all2all every rank holds exactly what each rank addressed to it.",
  "all numbers of ranks, all message sizes",
  "Ranges over all message sizes.",
  I+"utils/all2all.hh")
p("C56", "mesh element order is consistent with equality",
  "operator< on simplicial mesh elements is a strict total order consistent with operator==, so ordered sets and maps keyed by elements merge exactly the equal ones.",
  "all pairs and triples of elements",
  "Ranges over all pairs and triples of elements.",
  I+"mesh/simplicial_regular_mesh.hh: simplicial_regular_mesh_element::operator<, operator==")
p("C57", "connected component labelling",
  "labelConnectedComponents on zeroed labels gives label 0 exactly to rejected nodes and labels 1..count to accepted ones, equal iff the nodes are connected through accepted nodes.",
  "all finite symmetric graphs, all criteria",
  "Ranges over all graphs.",
  I+"algorithms/ccl.hh: labelConnectedComponents")
p("C58", "component overlap tracking",
  "track_connected_components relates component i to component j iff they share an element; trackConnectedComponentsByLabels relates two non-zero labels iff some cell carries the first before and the second after.",
  "all component lists, all label arrays",
  "Ranges over all pairs of labelings.",
  I+"algorithms/cca.hh: track_connected_components", I+"algorithms/ccl.hh: trackConnectedComponentsByLabels")
p("C59","relabel: global labels are tracks",
  "After relabel(), get_global_label gives two recorded features the same label exactly when they are connected through recorded correspondences, labels are consecutive integers from 0, and features never recorded have no label.",
  "all sequences of add_node/add_edge calls with any number of timesteps and labels","the claim is about every correspondence history; tests use one short sequence",
  I+"tracking_graph/tracking_graph.hh: relabel, get_global_label, add_edge, add_node")
p("C60","connected component tracker records the overlaps of consecutive frames",
  "After pushing and advancing any number of labelled frames of equal size, the tracking graph contains an edge between feature a of frame t and feature b of frame t+1 exactly when some cell carries label a in frame t and b in frame t+1 (background excluded).",
  "all frame sequences, frame sizes and labels","depends on the whole push/advance history",
  I+"filters/connected_component_tracker.hh: push_labeled_data_snapshot, advance_timestep, update_timestep", I+"tracking_graph/tracking_graph.hh: add_edge")
F="features/feature_curve.hh"
p("C61","smooth_ordinal_types only repairs isolated type outliers",
  "smooth_ordinal_types(h) gives an ordinal point the type T (T not 0) when its h predecessors and h successors among the ordinal points all have type T, judged on the types before the call; every other type and every other field is unchanged.",
  "all curves, all window sizes h >= 1","every combination of window position, outliers and curve length",
  I+F+": smooth_ordinal_types, to_ordinals")
p("C62","smooth_interval_types lets types change at most once between ordinal points",
  "smooth_interval_types keeps the types of ordinal points, gives leading and trailing interval points the type of the nearest ordinal point, and between two successive ordinal points leaves at most one switch, from the left type to the right type. Only types change.",
  "all curves","depends on arbitrary type sequences of arbitrary length",
  I+F+": smooth_interval_types")
p("C63","curve post-processing never invents points",
  "Whatever comma-separated operations are configured, the points of the resulting curve set are a sub-multiset of the points before (no point is invented or duplicated); operations other than split, discard_interval_points and derive_velocity lose no point; an unknown operation is fatal; after split every curve has a single type.",
  "all operation sequences and all curve sets","every sequence of operations over every curve set",
  I+"filters/feature_curve_set_post_processor.hh: filter", I+"features/feature_curve_set.hh: split_all")
p("C64","derive_velocity differentiates uniform and quadratic motion exactly",
  "derive_velocity changes only velocities; for a curve whose coordinate is a quadratic function of the point number the interior velocities are the exact derivative, and for uniform motion the velocity is exact at every point including both ends.",
  "all curves with at least two points, all motions","every curve length and coefficient",
  I+F+": derive_velocity")
p("C65","unwrap shifts by whole periods and removes jumps",
  "unwrap(period) moves every point by a whole number of periods in the chosen coordinate and changes nothing else; successive points at most 1.5 periods apart end up at most half a period apart; a curve without jumps is unchanged.",
  "all non-empty curves, all positive periods","jump patterns of any length",
  I+F+": unwrap")
p("C66","split_geo loses no point and cuts only at longitude jumps",
  "The pieces returned by split_geo are non-empty, their concatenation is the curve, inside a piece successive longitudes differ by at most 180 degrees, and at each cut they differ by more.",
  "all curves","every curve",
  I+F+": split_geo")
p("C67","quadratic and cubic solvers return exactly the real roots","solve_quadratic_real, solve_cubic_real and their _multiplicity versions return every real root of the polynomial with the given coefficients (each once, or with its multiplicity) and nothing else, and write only inside the output array.","all real coefficient vectors that are not all zero and have no tiny coefficients","The root formulas have to hold for every real coefficient vector, including the degenerate ones; tests sample.",I+"numeric/quadratic_solver.hh: solve_quadratic_real, solve_quadratic_real_multiplicity",I+"numeric/cubic_solver.hh: solve_cubic_real, solve_cubic_real_multiplicity",I+"numeric/linear_solver1.hh: solve_linear_real1")
p("C68","ndarray arithmetic and conversion are element-wise",
  "a+b and a+=b add corresponding elements and keep the shape, scaling multiplies every element, and from_array converts every element and keeps shape, component count and time flag; no element outside the arrays is read when the shapes agree.",
  "all shapes, all element types with the arithmetic used, all contents","every shape and content",
  I+"ndarray.hh: operator+, operator+=, from_array")
p("C69","2-D unstructured mesh keeps its triangles",
  "Building the mesh never leaves its arrays; get_triangle(i) returns the i-th input triangle with its vertices in increasing order; find_triangle, given the vertices in any order, returns the id of the triangle with these vertices and nothing for any other triple; the stored chirality is the sign of the permutation that sorted the vertices; vertex_triangles lists exactly the triangles containing the vertex.",
  "all vertex counts, all lists of distinct triangles with at most two on each edge, every iteration order of the hash containers","every mesh and every hash order",
  I+"mesh/simplicial_unstructured_2d_mesh.hh: build_triangles, find_simplex, get_simplex, get_triangle_chi")
p("C70","2-D unstructured mesh edges and incidence are exact and dual",
  "The edges are exactly the pairs of vertices joined by a triangle, each with one id; find_edge and get_edge are inverse; sides of a triangle are its three edges, side_of an edge the one or two triangles containing it, and the two relations are dual; vertex neighbours are exactly the vertices joined by an edge; the triangle adjacency given to METIS is exactly sharing an edge.",
  "all vertex counts, all lists of distinct triangles with at most two on each edge, every iteration order of the hash containers","every mesh and every hash order",
  I+"mesh/simplicial_unstructured_2d_mesh.hh: build_edges, sides, side_of, find_edge, get_vertex_edge_vertex, triangle_edge_triangles")
p("C71","mesh partition assigns every simplex and its ids consistently",
  "After partitioning, each triangle is on exactly one rank, each rank's local edges and vertices are exactly those of its triangles, and lid2gid and gid2lid are inverse.",
  "all meshes, all METIS outputs, all rank counts","every mesh, part vector and rank",
  I+"mesh/simplicial_unstructured_2d_mesh.hh: build_partition, lid2gid, gid2lid")
p("C72","trajectories follow the punctured facets through the cells",
  "The offline 2-D and 3-D regular trackers return curves such that every punctured facet of the space-time mesh is on exactly one curve, exactly once; successive points of a curve lie on two facets of one common cell inside the box; a curve either closes up or both its ends are facets on the boundary of the box; each cell inside has zero or two punctured facets, so no curve branches.",
  "all finite input series, all boxes, all time ranges, one process","every vector field, degenerate ones included",
  I+"filters/critical_point_tracker_2d_regular.hh: check_simplex, update_timestep",I+"filters/critical_point_tracker_3d_regular.hh: check_simplex, update_timestep",I+"filters/critical_point_tracker.hh: trace_critical_points_offline",I+"numeric/sign_det.hh: robust_critical_point_in_simplex2, robust_critical_point_in_simplex3",I+"mesh/simplicial_regular_mesh.hh: sides, side_of")
p("C73","point location in a triangulation is exact",
  "Building the point locator terminates and files every triangle in exactly one leaf; locate(x) returns only a triangle that contains x, with its barycentric coordinates; and it returns some triangle for every x contained in a triangle.",
  "all triangle meshes without degenerate triangles and without repeated centres, all query points","every mesh and every query point",
  I+"mesh/point_locator_2d_quad.hh: initialize, subdivide_quad_node, locate, locate_recursive, locate_nonrecursive",I+"mesh/aabb.hh: AABB")
p("C74","hypercube mesh faces are exact and dual",
  "For an axis-aligned cubical mesh of any dimension, sides(e) are exactly the faces of codimension one of e, side_of(e) exactly the elements having e among their sides, the number of types of d-elements is binomial(n,d), and the iterator visits elements in order without repetition.",
  "all dimensions, all elements, all bounds","every dimension and element",
  I+"mesh/regular_mesh.hh: regular_mesh_element, regular_mesh")
p("C75","rk4 is the classical fourth-order step and reports failure",
  "rk4 advances exactly as the Taylor polynomial of degree four for linear fields, exactly for constant fields and as Simpson's rule for fields depending only on one coordinate; it returns true only when all four velocity evaluations succeeded; when the first fails, the point is unchanged.",
  "all dimensions, all velocity callbacks, all step sizes","every field, step and failure point",
  I+"numeric/rk4.hh: rk4")
p("C76","spherical steps rotate exactly and stay on the sphere",
  "axis_rotate_vector is the rotation by the given angle about the given axis; angular_stepping moves along the great circle by arc length h|v| and keeps the radius; the vertical variants change the radius exactly by the vertical velocity; a failing velocity leaves the particle unmoved.",
  "all real positions, velocities, steps and callbacks","every position and velocity",
  I+"numeric/quaternion.hh: quatmul, axis_rotate_vector",I+"numeric/rk4.hh: angular_stepping, angular_and_vertical_stepping, spherical_stepping, spherical_rk4_with_vertical_velocity")
p("C77","finite-difference derivatives of gridded fields are exact for low-degree fields",
  "The gradient, Jacobian and vorticity operators never access memory outside their arrays, give the same result whatever the order of their parallel iterations, give at every interior grid point the derivative of any field of degree at most two, and leave 0 on the boundary layer; cross_product3D, Jv_dot_v and JvT_dot_v are the pointwise products.",
  "all grid sizes, all fields, all iteration orders","every grid, field and schedule",
  I+"ndarray/grad.hh: gradient2D, gradient2Dt, gradient3D, gradient3Dt, jacobian2D, jacobian2Dt, jacobian3D, jacobian3Dt, vorticity3D, cross_product3D, Jv_dot_v, JvT_dot_v")
p("C79","convolution smooths with the given kernel",
  "conv2D and conv3D access nothing outside the arrays, give the same result whatever the order of the iterations, and each output is the zero-padded sum of products with the kernel; the Gaussian kernels are positive, symmetric and of sum 1, so that smoothing keeps a constant field constant away from the boundary.",
  "all array and kernel sizes, paddings, contents and iteration orders","every array, kernel and schedule",
  I+"ndarray/conv.hh: conv2D, conv3D, gaussian_kernel, gaussian_kernel2D, conv2D_gaussian, conv3D_gaussian")
p("C78","gradients on a simplex are those of the affine interpolant",
  "gradient_2dsimplex2, gradient_3dsimplex2, jacobian_2dsimplex2 and jacobian_3dsimplex return the derivative of the affine function having the given values at the vertices of a non-degenerate simplex (jacobians: entry [d][c] is the derivative of component c along coordinate d).",
  "all non-degenerate simplices and all vertex values","every simplex and every field",
  I+"numeric/gradient.hh: gradient_2dsimplex2, gradient_3dsimplex2, jacobian_2dsimplex2, jacobian_3dsimplex")
p("C80","matrix norms and condition numbers bound what they should",
  "The 1-norms and the infinity norm are the operator norms; cond_real2x2/3x3 of an invertible matrix is at least 1 and bounds the relative error of the solution of a linear system by the relative error of the right-hand side; the Frobenius norm is the root of the sum of squares; the symmetric and antisymmetric decompositions are the unique ones.",
  "all matrices and vectors","every matrix, vector and perturbation",
  I+"numeric/matrix_norm.hh: matrix_1norm_real2x2, matrix_1norm_real3x3, matrix_inf_norm_real2x2, matrix_frobenius_norm_real2x2",I+"numeric/cond.hh: cond_real2x2, cond_real3x3",I+"numeric/matrix_decomposition.hh")
p("C81","complex polynomial solvers return all complex roots",
  "solve_quadratic, solve_cubic and quartic_solve return exactly the complex roots with multiplicity; solve_cubic's returned discriminant tells whether all roots are real.",
  "all real coefficients","every coefficient vector including degenerate ones",
  I+"numeric/quadratic_solver.hh: solve_quadratic",I+"numeric/cubic_solver.hh: solve_cubic",I+"numeric/quartic_solver.hh: quartic_solve")
p("C82","eigenvectors are unit eigenvectors",
  "vector_normalization2 returns the unit vector in the same direction; for every eigenvalue of the matrix solve_eigenvectors2x2 and solve_eigenvectors3x3 return a unit vector v with A v = lambda v.",
  "all real matrices and all their eigenvalues","every matrix and eigenvalue",
  I+"numeric/eigen_solver2.hh: solve_eigenvectors2x2",I+"numeric/eigen_solver3.hh: solve_eigenvectors3x3",I+"numeric/vector_normalization.hh: vector_normalization2")
p("C83","the contour trackers find exactly the edges crossed by the contour",
  "After pushing a series of scalar snapshots and advancing, no read was out of range; the intersections of contour_tracker_2d_regular and contour_tracker_3d_regular are exactly the edges of the spacetime mesh within the domain and the times of the series having one end above the threshold and the other not (above: by at least 2^-21), each reported once; the related cells are exactly the mesh cells containing such an edge.  The result does not depend on the order in which the parallel tasks ran.",
  "all domains, thresholds, series of snapshots (any number, any values) and all orders of execution of the parallel tasks",
  "every mesh size, number of snapshots, field and schedule",
  I+"filters/contour_tracker_2d_regular.hh: update_timestep, check_simplex, simplex_values",I+"filters/contour_tracker_3d_regular.hh: update_timestep, check_simplex, simplex_values",I+"filters/contour_tracker_regular.hh: get_intersections, reset",I+"filters/contour_tracker.hh: advance_timestep, push_field_data_snapshot, pop_field_data_snapshot")
p("C84","contour points lie on the contour and on their edge",
  "Every intersection reported lies on its mesh edge, at the point where the linear interpolation of the two end values equals the threshold; it carries the threshold as its scalar value, the edge's number as its tag, the time of the earlier end and whether the edge lies in one time slice.",
  "all domains, thresholds, series, schedules and reported points","every field value, including values just above the threshold",
  I+"filters/contour_tracker_2d_regular.hh: check_simplex",I+"filters/contour_tracker_3d_regular.hh: check_simplex",I+"numeric/inverse_linear_interpolation_solver.hh: inverse_lerp_s1v1")
p("C85","the contour surface of a 2-D series is a watertight triangulation",
  "The surface built from the intersections has one point per intersection and triangles with three different existing points; an edge of the surface lies in exactly two triangles, except on the boundary of the domain or at the first and last time, where it lies in one.  The order in which the cells are processed only permutes the triangles.",
  "all domains, thresholds, series of snapshots and orders of processing","every configuration of signs over the whole mesh",
  I+"filters/contour_tracker_2d_regular.hh: build_isosurfaces",I+"features/feature_surface.hh: tris, pts")
p("C86","the isovolume of a 3-D series is a watertight tetrahedralisation",
  "Building the isovolume of a 3-D time series never overruns an array; each mesh cell crossed by the contour contributes a decomposition of its part of the contour into tetrahedra with four different existing points; the pieces of neighbouring cells fit: each triangle lies in exactly two tetrahedra except on the boundary of the domain or at the first and last time.",
  "all domains, thresholds, series of snapshots and orders of processing","every configuration of signs over the whole mesh",
  I+"filters/contour_tracker_3d_regular.hh: build_isovolume",I+"features/feature_volume.hh: conns, pts")
p("C87","relabel numbers the connected components",
  "relabel() of a feature line, surface or volume changes nothing but the identifiers of the points; afterwards two points have the same identifier exactly if they are connected through cells (edges, triangles, quadrilaterals, pentagons, tetrahedra), and the identifier is the number of a point of the component.",
  "all point sets and all cells referring to existing points","every complex: any number and arrangement of cells",
  I+"features/feature_line.hh: relabel",I+"features/feature_surface.hh: relabel",I+"features/feature_volume.hh: relabel")
p("C88","slices of a volume are the triangles of its tetrahedra",
  "feature_volume_t::slice(f) has exactly the points satisfying f, in order, and exactly one triangle for each triple of such points that is the part of a tetrahedron satisfying f; slice_time(t) does the same for the points lying in time slice t.",
  "all volumes, all predicates and all times","every complex and predicate",
  I+"features/feature_volume.hh: slice, slice_time")
p("C89","lines and slices of surfaces are cut into curves without losing or repeating points",
  "feature_line_t::to_curve_set and feature_surface_t::slice_time always finish and return curves whose consecutive points share an edge (triangle); every point having at most two such neighbours is on exactly one curve, once, the other points on none; two such points are on the same curve exactly if they are connected through such points; each curve is labelled with the identifier of its first point and flagged as loop exactly if it has at least two points and its ends are neighbours.",
  "all lines, all surfaces and all times","every graph formed by edges or triangles",
  I+"features/feature_line.hh: to_curve_set",I+"features/feature_surface.hh: slice_time",I+"features/feature_curve_set.hh: add")
p("C90","discard removes the selected points and their triangles",
  "feature_surface_t::discard(f) always finishes, keeps in order every point not satisfying f and removes the points satisfying f, and keeps exactly the triangles all of whose points are left, in order and renumbered.",
  "all surfaces with cells referring to existing points, all predicates and distances","every surface and every set of points discarded, including chains of neighbouring discarded points",
  I+"features/feature_surface.hh: discard")
p("C91","reorient only flips triangles, and makes neighbours agree",
  "feature_surface_t::reorient() always finishes and changes nothing but the orientation of triangles; afterwards neighbouring triangles pass through their common edge in opposite directions.",
  "all surfaces","every surface",
  I+"features/feature_surface.hh: reorient")
p("C92","the unstructured 2-D tracker tests every space-time triangle exactly once",
  "Pushing the snapshots one after another and calling the time loop, every triangle of the extruded mesh (at a timestep, or between two consecutive timesteps) is tested exactly once, with the values of the snapshots belonging to its vertices; the recorded points do not depend on the order in which the threads execute the tests, are keyed by their triangle, and every triangle that passes the robust test yields a point (unless a filter drops it).  With streaming enabled the points of the last timestep are there as well.",
  "all valid triangle meshes, all series of snapshots and all thread schedules","any mesh, any number of timesteps, any schedule",
  I+"filters/critical_point_tracker_2d_unstructured.hh: update_timestep, check_simplex, simplex_values, finalize",I+"filters/critical_point_tracker.hh: push_field_data_snapshot, advance_timestep, update_vector_field_scaling_factor",I+"filters/unstructured_2d_tracker.hh: initialize",I+"mesh/simplicial_unstructured_extruded_2d_mesh.hh: element_for_ordinal, element_for_interval")
p("C93","points of the unstructured 2-D tracker lie in their triangle",
  "A recorded point has barycentric weights in [0,1] (up to the machine epsilon the solver tolerates) adding up to 1, its position and time are the combination of the vertices with these weights; if quantisation represents the vectors exactly, the weights are exactly in [0,1], the interpolated vector is zero there, and the time is between that of the two timesteps.",
  "all meshes, coordinates and series","all values of the field",
  I+"filters/critical_point_tracker_2d_unstructured.hh: check_simplex",I+"numeric/inverse_linear_interpolation_solver.hh: inverse_lerp_s2v2",I+"numeric/linear_interpolation.hh: lerp_s2v4")
p("C94","trajectories on an unstructured mesh follow the punctured triangles through the tetrahedra",
  "Every punctured triangle is on exactly one trajectory, once; consecutive triangles of a trajectory are faces of a common tetrahedron of the extruded mesh; a trajectory is closed, or both its ends are on the boundary of the extruded mesh; a tetrahedron is passed by no trajectory or by one, that enters and leaves it; the loop flag tells which trajectories close.",
  "all valid meshes, all series of finite values, all thread schedules","every arrangement of critical points, of any number of timesteps and elements",
  I+"filters/critical_point_tracker_2d_unstructured.hh: finalize, update_timestep",I+"filters/critical_point_tracker.hh: trace_critical_points_offline",I+"mesh/simplicial_unstructured_extruded_2d_mesh.hh: side_of, sides")
p("C95","a simplex reported to contain a zero contains exactly one",
  "If robust_critical_point_in_simplex1/2/3 answers yes for integer vectors at vertices with distinct indices, none negative, then the vectors are affinely independent and have exactly one convex combination that is zero: the linear system of the solver that is called next is regular, and its solution is in the closed simplex.",
  "all integer vectors and all vertex indices","every input, including all degenerate ones",
  I+"numeric/critical_point_test.hh: robust_critical_point_in_simplex1, robust_critical_point_in_simplex2, robust_critical_point_in_simplex3",I+"numeric/sign_det.hh: robust_point_in_simplex2, robust_point_in_simplex3")
p("C96","the critical line tracker records exactly the pierced space-time triangles",
  "After the time loop over a series of snapshots, whatever the order in which the threads execute the tests, the record of the critical line tracker contains exactly the triangles of the 4-D space-time mesh, inside the domain and at the times of the series, whose quantised 2-vectors surround zero under the tie-breaking rule, each once; the point of a triangle lies in it, is marked as belonging to a single timestep exactly if the triangle does, and has a tag no other triangle has; if quantisation represents the vectors exactly, the point is the only one of the triangle's plane where the interpolated vector is zero.",
  "all domains, series of snapshots, value types (also those of the derived trackers) and thread schedules","any grid, any number of timesteps, any schedule, every degenerate value",
  I+"filters/critical_line_tracker.hh: push_field_data_snapshot, advance_timestep",I+"filters/critical_line_tracker_3d_regular.hh: update_timestep, check_simplex, simplex_values",I+"filters/regular_tracker.hh: simplex_indices")
p("C97","the pierced triangles of a 4-simplex are the corners of one polygon, and the surface joins them",
  "In every 4-simplex inside the domain and the series, the pierced triangles are the corners of one polygon with three, four or five corners, or there are none; each tetrahedron has none or two, which are neighbours in the polygon. The surface step never overflows its array of six, uses each polygon once, its triangles have three different corners, triangulate each polygon, join two points directly exactly if they belong to a common 4-simplex inside, and the identifiers it assigns are equal exactly for points linked through such 4-simplices.",
  "all domains, series, and orders of the parallel tasks","all configurations of values in all 4-simplices",
  I+"filters/critical_line_tracker_3d_regular.hh: build_vortex_surfaces, get_relatetd_cels",I+"features/feature_surface.hh: relabel")
p("C98","lines of a single snapshot follow the pierced triangles through the tetrahedra",
  "For a series of one snapshot, every pierced triangle is on exactly one curve, once; consecutive triangles of a curve are faces of a common tetrahedron inside; a curve closes, or both its ends are at the boundary of the domain; every tetrahedron inside is passed by no curve or by one, that enters it by one face and leaves it by another.",
  "all domains, snapshots and thread schedules","any grid and any arrangement of zero lines",
  I+"filters/critical_line_tracker_3d_regular.hh: build_vortex_lines, finalize",I+"algorithms/cca.hh: extract_connected_components",I+"geometry/cc2curves.hh: connected_component_to_linear_components")
p("C99","the vortex core and ridge trackers record exactly the crossings of their derived field",
  "For the Sujudi-Haimes tracker with velocity snapshots and the ridge/valley tracker with scalar snapshots, on a domain two vertices away from the faces of the array: pushing succeeds, no read leaves an array, and after the time loop, whatever the schedule, a point is recorded for exactly the space-time triangles in the domain where the first two components of velocity x acceleration (gradient x Hessian gradient), computed with central differences, cross zero; the point lies in its triangle, and its scalars are the third component, the scaled discriminant of the velocity gradient and (ridges) the interpolated scalar at that point.",
  "all array sizes, domains, series of snapshots and thread schedules","any data, any size, any schedule",
  I+"filters/sujudi_haimes_tracker_3d_regular.hh: push_field_data_snapshot, simplex_values, check_simplex",I+"filters/ridge_valley_tracker_3d_regular.hh: push_field_data_snapshot",I+"ndarray/grad.hh: jacobian3D, Jv_dot_v, cross_product3D, gradient3D")
p("C100","discJ is negative exactly where the flow swirls",
  "The scalar discJ reported with a point is negative exactly if the velocity gradient interpolated at the point has an eigenvalue that is not real.",
  "all velocity series, triangles and points in them","a statement about the eigenvalues of every real matrix",
  I+"filters/sujudi_haimes_tracker_3d_regular.hh: check_simplex",I+"numeric/characteristic_polynomial.hh: characteristic_polynomial_3x3",I+"numeric/cubic_solver.hh: cubic_discriminant")
p("C101","the Levy-Degani-Seginer tracker records crossings of velocity x vorticity and reports the vorticity there",
  "As C99 for velocity x vorticity on a domain one vertex away from the faces; the scalars of a point are the third component and the magnitude of the vorticity at the point.",
  "all array sizes, domains, series and schedules","any data, any size, any schedule",
  I+"filters/levy_degani_seginer_tracker_3d_regular.hh: push_field_data_snapshot, simplex_values, check_simplex",I+"ndarray/grad.hh: vorticity3D",I+"numeric/vector_norm.hh: vector_2norm_2")
p("C102","points of the core line trackers are where the two vectors are parallel",
  "A recorded point is where the velocity and the acceleration (the vorticity) are parallel, and every place where they are parallel is recorded.",
  "all velocity series","all data, including the degenerate cases",
  I+"filters/sujudi_haimes_tracker_3d_regular.hh: check_simplex",I+"filters/critical_line_tracker_3d_regular.hh: check_simplex")
p("C103","the core line trackers give meaningful points on every domain inside the array",
  "On any domain inside the array (the command line program uses one that reaches the far faces) the pushes and the loop succeed and the points found are crossings of the field computed from the data.",
  "all domains inside the array, all series and schedules","any domain, data and schedule",
  I+"filters/sujudi_haimes_tracker_3d_regular.hh: push_field_data_snapshot","src/cli/ftk.cpp: initialize_critical_line_tracker")
p("C104","the vortex tracker finds a triangle crossed exactly if the gauge-invariant phase winds around it",
  "For the phases and line integrals of any triangle there is exactly one integer n, the winding number, such that the phase differences less the line integrals, each reduced to [-pi, pi), add up to n turns less the circulation of the potential; the triangle is found crossed exactly if this sum is at least half a turn in absolute value. If the circulation is less than half a turn, that is exactly if n is not 0, and then n is 1 or -1.",
  "all phases and line integrals","all real numbers",
  I+"filters/tdgl_vortex_tracker_3d_regular.hh: check_simplex",I+"numeric/fmod.hh: fmod1, mod2pi, mod2pi1")
p("C105","the line integrals add up to the magnetic flux",
  "The line integrals of the magnetic potential around a triangle of one snapshot add up to the flux of the snapshot's magnetic field through it, for every field, cell size, origin and kex.",
  "all metadata and triangles","all fields and triangles",
  I+"filters/tdgl_vortex_tracker_3d_regular.hh: magnetic_potential, line_integral")
p("C106","the vortices do not depend on the branch of the phase or the gauge",
  "Adding any number of full turns to the phase of each vertex, or a gauge transformation (any function added to the phases and its differences to the line integrals), changes neither which triangles are found crossed nor (values in general position) where in the triangle the point is.",
  "all phases, line integrals, amplitudes and gauge functions","all gauges",
  I+"filters/tdgl_vortex_tracker_3d_regular.hh: check_simplex",I+"numeric/linear_interpolation.hh: lerp_s2v4")
p("C107","the vortex tracker records exactly the crossed triangles of the series",
  "After the driver's loop over a series of snapshots, for every schedule of the scans, a point is recorded for exactly the space-time triangles in the domain and the times of the series around which the gauge-invariant phase turns by half a turn or more; no read leaves an array.",
  "all array sizes, domains, series and schedules","any data, any size, any schedule",
  I+"filters/tdgl_vortex_tracker_3d_regular.hh: update_timestep, check_simplex, simplex_values",I+"filters/tdgl_vortex_tracker.hh: push_field_data_snapshot, advance_timestep")
p("C108","vortices do not end inside the domain",
  "In every tetrahedron the signed winding numbers of the four faces cancel; the number of crossed faces is even; without circulation it is 0 or 2.",
  "all tetrahedra, phases, amplitudes and metadata","all real data, including exact ties",
  I+"filters/tdgl_vortex_tracker_3d_regular.hh: check_simplex",I+"numeric/fmod.hh: mod2pi1")
p("C109","the point of a crossed triangle is the zero of the order parameter in it",
  "The point recorded for a crossed triangle lies in the triangle, where the order parameter, transported to the first vertex along the edges and interpolated linearly, is zero; a triangle with such a zero in its interior is found crossed.",
  "all triangles with positive amplitudes","all real data",
  I+"filters/tdgl_vortex_tracker_3d_regular.hh: check_simplex",I+"numeric/inverse_linear_interpolation_solver.hh: inverse_lerp_s2v2")
p("C110","vortex surfaces join the points of each space-time cell",
  "After the loop over a series the surface is built, whatever the schedules; its points are the recorded ones, its triangles the patches of the 4-simplices with crossed triangles, and two points get one identifier exactly if they are linked through 4-simplices. The crossed triangles of a 4-simplex are the corners of one polygon.",
  "all series and schedules","any data, size, schedule",
  I+"filters/tdgl_vortex_tracker_3d_regular.hh: build_vortex_surfaces, finalize",I+"features/feature_surface.hh: relabel")
p("C111","the particle tracer integrates every interval once, each particle on its own",
  "For a series of at least two snapshots the command line tool carries every particle through the intervals 0, 1, .., interval i exactly once, between snapshots i and i+1 and starting from time i; the trajectory of a particle depends only on its own seed and the snapshots, not on the other particles, the number of threads or the schedule. With a single snapshot and ntimesteps = 1 every particle is integrated once in the steady field.",
  "all series, seeds, parameters and execution orders of the parallel loops","any number of snapshots and particles, any schedule",
  I+"filters/particle_tracer.hh: update_timestep, advance_timestep, prepare_timestep","src/cli/ftk.cpp: initialize_particle_tracer")
p("C112","a trajectory has a point at the start of each interval, at every 16th step and at the end",
  "With delta_t = 1 a run over valid snapshots is always defined, never removes a point, and either records for every interval i exactly the times i + 16 j / n for the steps 16 j below n, and i+1, in nondecreasing order, or the particle ends outside the grid.",
  "all velocity fields, seeds, numbers of steps and series","any field and any length",
  I+"filters/particle_tracer.hh: update_timestep, eval_vt",I+"numeric/rk4.hh: rk4")
p("C113","a trajectory that ends inside the grid is complete, and a particle that left stays where it left",
  "A particle whose last recorded position is inside the grid has reached the last time step with all its checkpoints. A particle that leaves the grid is recorded at the boundary when it leaves, and never moves again.",
  "all velocity fields, seeds and series","any field",
  I+"filters/particle_tracer.hh: update_timestep",I+"numeric/rk4.hh: rk4",I+"ndarray.hh: mlerp")
p("C114","particles in uniform time-dependent velocities are traced exactly",
  "If every snapshot has the same velocity at all grid points and the particle has room, its recorded positions are those of the exact solution for the velocity interpolated linearly in time, at every checkpoint and at the end of the series, whatever the number of steps.",
  "all uniform velocity series, seeds, grids and step counts","all reals, any number of steps and snapshots",
  I+"filters/particle_tracer.hh: update_timestep, eval_vt",I+"filters/particle_tracer_regular.hh: eval_v",I+"numeric/rk4.hh: rk4")
p("C115","the time step and the seed times can be chosen freely",
  "For every positive set_delta_t and every seed time in the series the particle is integrated from its seed time to the end of the series.",
  "all time steps and seed times","all real parameters",
  I+"filters/particle_tracer.hh: set_delta_t, update_timestep, eval_vt, initialize_particles")
p("C116","particles in steady affine flows follow the fourth-order Taylor step",
  "In a steady velocity field A x + b sampled on the grid, a particle that ends inside the grid ends at the last time step at the position given by n steps per interval of the degree 4 Taylor polynomial of the exact solution.",
  "all matrices, vectors, grids, seeds, step counts and series","all reals, any number of steps",
  I+"filters/particle_tracer.hh: update_timestep",I+"numeric/rk4.hh: rk4",I+"ndarray.hh: mlerp")
p("C117","seeding at grid points covers the domain exactly once",
  "initialize_particles_at_grid_points creates one particle for every grid point of the domain, once each, at time 0, whatever the schedule; with the domain of the command line tool all of them are inside the grid.",
  "all domains and schedules","any size, any schedule",
  I+"filters/particle_tracer_regular.hh: initialize_particles_at_grid_points",I+"mesh/simplicial_regular_mesh.hh: element_for_ordinal")
p("C118","a recorded point carries the velocity at that point",
  "Every recorded point of a trajectory carries the velocity of the field at its position and time.",
  "all fields, seeds and series","any field",
  I+"filters/particle_tracer.hh: update_timestep",I+"numeric/rk4.hh: rk4")
p("C119","solve_linear_inequality returns the solution interval",
  "The interval returned for a x + b >= 0 contains exactly the reals satisfying it.",
  "all real a and b","all reals",
  I+"numeric/linear_inequality_solver.hh: solve_linear_inequality",I+"numeric/basic_interval.hh: contains")
p("C120","solve_cubic_inequality_real returns the solution set",
  "The set of intervals returned for a polynomial of degree at most 3 contains exactly the reals x with P(x) >= 0.",
  "all coefficient vectors without tiny coefficients","all reals; needs the sign of a cubic between its roots",
  I+"numeric/cubic_inequality_solver.hh: solve_cubic_inequality_real",I+"numeric/cubic_solver.hh: solve_cubic_real",I+"numeric/disjoint_intervals.hh: join, contains",I+"numeric/basic_interval.hh: sample")
p("C121","evaluate_rational and evaluate_rational_infinity return the limit of P/Q",
  "The value returned at x (at infinity) is v exactly when P(y)/Q(y) tends to v as y tends to x (to infinity), resolving removable singularities; it is NaN at a pole, and for a zero denominator.",
  "all degrees, coefficient arrays and points at which the epsilon tests are exact","all degrees and orders of vanishing",
  I+"numeric/rational_function.hh: evaluate_rational, evaluate_rational_infinity",I+"numeric/polynomial.hh: polynomial_derivative, polynomial_evaluate")
p("C122","A tetrahedral mesh numbers its edges, triangles and tetrahedra and their incidences",
  "After a mesh is set up from vertices and tetrahedra, get_simplex on the ids 0..n(d)-1 gives each edge, triangle and tetrahedron exactly once with increasing corners, in lexicographic order; find_simplex inverts it and finds nothing else; side_of gives exactly the cells one dimension up that contain the cell; sides those one dimension down; the vertex neighbours are those joined by an edge.",
  "all lists of tetrahedra with distinct corners in range, no two alike, any number sharing a face","all meshes",
  I+"mesh/simplicial_unstructured_3d_mesh.hh: build_edges, build_triangles, build_tetrahedra, get_simplex, find_simplex, side_of, sides, get_vertex_edge_vertex")
p("C123","Ids of the extruded tetrahedral mesh and its space-time simplices correspond one to one",
  "get_simplex decodes an id of dimension d <= 4 to the d+1 vertices of a simplex of base mesh x time (a chain of the product order within one interval over one tetrahedron), every such simplex has exactly one id, ordinal ids are those within one time step, and element_for_ordinal/interval visit each id of a time step exactly once.",
  "all meshes, dimensions, ids and times","all meshes and ids",
  I+"mesh/simplicial_unstructured_extruded_3d_mesh.hh: n, n_ordinal, n_interval, is_ordinal, simplex_type, get_simplex, element_for_ordinal, element_for_interval, flat_vertex_id, flat_vertex_time")
p("C124","In the extruded tetrahedral mesh sides(4) and side_of(3) are exact and inverse",
  "sides(4,k) are exactly the five tetrahedra that are facets of pentachoron k, side_of(3,x) exactly the pentachora of which x is a facet; a tetrahedron without an edge along time lies between exactly two pentachora.",
  "all meshes, all pentachora and tetrahedra at non-negative times","all meshes and ids",
  I+"mesh/simplicial_unstructured_extruded_3d_mesh.hh: sides, side_of")
p("C125","In the extruded tetrahedral mesh sides(3) and side_of(2) are exact and inverse",
  "sides(3,k) are exactly the four triangles of tetrahedron k, side_of(2,x) exactly the tetrahedra that contain triangle x.",
  "all meshes, all tetrahedra and triangles at non-negative times","all meshes and ids",
  I+"mesh/simplicial_unstructured_extruded_3d_mesh.hh: sides, side_of",I+"filters/critical_line_tracker_3d_unstructured.hh: finalize")
p("C126","Tracking critical points on a tetrahedral mesh: each punctured space-time tetrahedron is found exactly once",
  "For a series of vector fields on a tetrahedral mesh, after push/advance/update in any order that keeps two snapshots at each advance, the recorded points are exactly: one per space-time tetrahedron whose vectors (each read from the snapshot of its own time) pass the robust test with the scaling factor of that moment and are affinely independent; nothing is lost or found twice, and the result does not depend on how the threads interleave. Pushing with push_vector_field_snapshot works like pushing with push_field_data_snapshot.",
  "all valid tetrahedral meshes, series of finite vector fields, orders of calls and thread schedules","all meshes, series and schedules",
  I+"filters/critical_point_tracker_3d_unstructured.hh: update_timestep, check_simplex, simplex_values, push_vector_field_snapshot",I+"filters/json_interface.hh: consume_unstructured loops")
p("C127","The position of a critical point on a tetrahedral mesh is the zero of the interpolated field",
  "The reported position is a convex combination of the positions of the corners (time included), with weights that make the linearly interpolated vector zero.",
  "all tetrahedra of all series of vector fields","all real vectors",
  I+"filters/critical_point_tracker_3d_unstructured.hh: check_simplex",I+"numeric/inverse_linear_interpolation_solver.hh: inverse_lerp_s3v3")
p("C128","Trajectories on a tetrahedral mesh follow the zero curve",
  "The trajectories returned after finalize partition the punctured tetrahedra; consecutive tetrahedra of a trajectory are faces of one pentachoron inside the time range, each pentachoron is passed by at most one curve, which enters by one face and leaves by another; a trajectory closes, or both ends are at the boundary (of the mesh or of the time range), and the loop flag tells which.",
  "all valid manifold tetrahedral meshes, series and schedules","all meshes and series",
  I+"filters/critical_point_tracker_3d_unstructured.hh: finalize")
p("C129","Critical lines on a tetrahedral mesh: each pierced triangle is found exactly once, with the zero as its point",
  "After the driver loop, the recorded points are exactly the space-time triangles whose 2-vectors pass the robust test; each is stored once under its id with convex weights, its position (time included) is the weighted mean of the corners, the ordinal flag and the timestep tell where it is, and for values that are multiples of 2^-21 the weights are those, and the only ones, that make the interpolated 2-vector zero.",
  "all valid tetrahedral meshes, series and schedules","all meshes, values and schedules",
  I+"filters/critical_line_tracker_3d_unstructured.hh: update_timestep, check_simplex, simplex_values",I+"numeric/clamp.hh: clamp_barycentric")
p("C130","Critical lines on a tetrahedral mesh follow the zero line through the tetrahedra",
  "For a single snapshot, the curves built by finalize partition the pierced triangles; consecutive triangles are faces of one tetrahedron, each tetrahedron of the mesh is passed by at most one curve, which enters by one face and leaves by another; a curve closes or both its ends are at the boundary of the mesh.",
  "all valid manifold tetrahedral meshes, 2-vector fields and schedules","all meshes and fields",
  I+"filters/critical_line_tracker_3d_unstructured.hh: build_vortex_lines, finalize")
p("C131","Ids of the periodic mesh of poloidal planes name its simplices",
  "On a torus of planes built over a triangulation, every integer (also a negative one) is the id of a simplex, ids being counted modulo n(d); get_simplex returns its vertices in ascending order and inside the mesh; every simplex of the torus, those that cross from the last plane to the first included, has an id in 0..n(d)-1; with three planes or more the id is unique and find_simplex recovers it from the vertices in any order; get_poloidal is the plane a simplex starts in, and is_poloidal / is_actual_poloidal tell whether it lies in one (actual) plane.",
  "all valid triangulations, numbers of planes, dimensions and ids","all meshes and all integers",
  I+"mesh/simplicial_xgc_3d_mesh.hh: get_simplex, find_simplex, transform, n, get_poloidal, is_poloidal, is_actual_poloidal")
p("C132","Sides and cofaces on the periodic mesh",
  "sides of a tetrahedron and side_of of a triangle return ids in range without repetition: four sides, one or two cofaces; they are dual to each other; with three planes or more they are exactly the pairs whose vertices are included; get_vertex_edge_vertex returns vertices joined to the given one by an edge of the torus.",
  "all valid triangulations, numbers of planes and ids","all meshes and all integers",
  I+"mesh/simplicial_xgc_3d_mesh.hh: sides, side_of, get_vertex_edge_vertex")
p("C133","Coordinates of the vertices of the periodic mesh, and its slices for export",
  "get_coords returns the Cartesian position of a vertex, i.e. its position in the plane turned by the angle of its plane. The exported slices hold each vertex of each plane, turned by the angle of the plane, under its vertex id, and exactly the triangles that lie in one plane, with the vertices get_simplex gives.",
  "all meshes and vertices","all meshes",
  I+"mesh/simplicial_xgc_3d_mesh.hh: get_coords, get_coords_xyz, get_coords_rzp, to_vtu_slices",I+"mesh/simplicial_unstructured_extruded_2d_mesh.hh: get_coords")
p("C134","Interpolation of a field to the virtual planes",
  "Given a field on the actual planes, interpolate returns it unchanged in the actual planes; in a virtual plane it returns the mean, weighted with the distances to the plane before and after (the last plane being followed by the first), of the weighted means over the triangles hit by the field line through the vertex; constants are kept and the values stay within the bounds of the two planes if the weights are not negative; the versions for one vertex, for the whole array and for value, gradient and Jacobian agree; initialize_interpolants provides what is needed for every vertex of every virtual plane.",
  "all meshes, numbers of planes, fields, field-line maps and vertices","all real fields",
  I+"mesh/simplicial_xgc_3d_mesh.hh: initialize_interpolants, interpolate",I+"numeric/xgc_interpolant.hh: xgc_interpolant_t")
p("C135","Turbulence derived from a potential",
  "derive_turbulence is the deviation of the potential from its mean over the planes divided by the temperature profile, interpolated linearly between the knots of the flux (constant outside them): it has mean zero over the planes at every vertex, and adding a potential that is the same in all planes does not change it.",
  "all potentials, profiles with ascending knots, meshes and vertices","all real inputs",
  I+"mesh/simplicial_xgc_3d_mesh.hh: derive_turbulence")
p("C136","Labels of superthreshold blobs on the torus mesh",
  "After any history of pushed snapshots and steps of the XGC blob threshold tracker, get_sliced(t) gives every vertex of the mesh of time step t a label: -1 for a vertex whose value is below the threshold, and for two vertices (of the same or of different time steps) at or above it the same label if and only if they are joined by a chain of such vertices that are neighbours on the mesh or the same vertex at consecutive time steps.",
  "all triangulations, numbers of planes, field-line interpolants, fields, thresholds and histories","all fields and histories",
  I+"filters/xgc_blob_threshold_tracker.hh: update_timestep, get_sliced",I+"filters/xgc_tracker.hh: push_field_data_snapshot, advance_timestep",I+"mesh/simplicial_xgc_3d_mesh.hh: get_vertex_edge_vertex, interpolate")
p("C138","Quadratic interpolation in a triangle",
  "The quadratic interpolant built from the values at the three vertices and three edge midpoints of a non-degenerate triangle takes those six values, reproduces every quadratic polynomial exactly, agrees with its barycentric form, and its gradient and Hessian functions return the first and second derivatives.",
  "all non-degenerate triangles, values and points (exact arithmetic)","infinitely many triangles, polynomials and points",
  I+"numeric/quadratic_interpolation.hh: quadratic_interpolation_coefficients, quadratic_interpolation, quadratic_interpolation_gradient, quadratic_interpolation_hessian")
p("C139","Parallel vectors on a triangle and on an edge",
  "Every solution returned by the parallel-vectors solver of a triangle (3-D vectors) or an edge (2-D vectors) is a point of the cell where the two interpolated fields are parallel with the returned factor, and every isolated such point with a factor away from zero is returned.",
  "all pairs of fields on a cell (exact arithmetic, exact root finder)","infinitely many fields",
  I+"numeric/parallel_vector_solver3.hh: solve_pv_s2v3",I+"numeric/parallel_vector_solver2.hh: solve_pv_s1v2")
p("C140","Parallel vectors of 3-D fields on an edge",
  "The points returned by the parallel-vectors solver of an edge with 3-D vectors are exactly the points where the two fields are parallel.",
  "all pairs of fields on an edge","infinitely many fields",
  I+"numeric/parallel_vector_solver3.hh: solve_pv_s1v3")
p("C141","Parallel-vectors curves as rational functions",
  "The polynomials returned for a tetrahedron with 3-D vectors, and for a triangle with 2-D vectors, describe the parallel-vectors set: for every factor at which the denominator does not vanish, the quotient is the one and only point (in barycentric coordinates) where the fields are parallel with that factor; for a tetrahedron the denominator vanishes exactly when there is not exactly one such point.",
  "all pairs of fields and all factors (exact arithmetic)","infinitely many fields and factors",
  I+"numeric/parallel_vector_solver3.hh: characteristic_polynomials_pv_s3v3",I+"numeric/parallel_vector_solver2.hh: characteristic_polynomials_pv_s2v2")
p("C142","Zeros of bilinear and trilinear vector fields",
  "The inverse interpolation solvers of a square and of a cube return exactly the points of the cell where the interpolated field vanishes.",
  "all corner values (exact arithmetic)","infinitely many fields",
  I+"numeric/inverse_bilinear_interpolation_solver.hh: inverse_bilinear_interpolation",I+"numeric/inverse_trilinear_interpolation_solver.hh: inverse_trilinear_interpolation8_3",I+"numeric/underdetermined_eigen_solver.hh: solve_underdetermined_eigen_3x3_with_constrain")
p("C143","Degree of a critical point in a triangle",
  "For a linear field with one zero inside the triangle, the degree function returns the index of the zero, +1 or -1 as the determinant of the Jacobian.",
  "all triangles and fields","infinitely many fields",
  I+"numeric/critical_point_degree.hh: critical_point_degree_simplex2")
p("C144","Wachspress coordinates of a point in a convex polygon",
  "The interpolation weights of a point in a convex planar polygon in space are non-negative, sum to one, reproduce the point, and at a vertex select that vertex alone.",
  "all convex polygons and points","infinitely many polygons",
  I+"numeric/wachspress_interpolation.hh: wachspress_weights")
p("C137","Tracking of superthreshold regions",
  "After pushing any sequence of 2-D scalar fields of one shape into the threshold tracker (with any threshold and comparison for each), every frame's cells that satisfy the comparison are labelled by 4-connected region and all others 0; the tracking graph has an edge between a region of one frame and a region of the next exactly when they share a cell, and no other edge; and the labels returned for the last frame are its labelling.",
  "all shapes, sequences of fields, thresholds and comparisons","all sequences of fields",
  I+"filters/threshold_tracker.hh: set_threshold, push_scalar_field_data_snapshot, get_last_labeled_array_snapshot",I+"filters/connected_component_tracker.hh: advance_timestep",I+"algorithms/hoshen_kopelman.hh: hoshen_kopelman_2d")
p("C145","Degrees reported by the 2-D critical point trackers",
  "With set_enable_computing_degrees(true), a critical point on a triangle within one time step is reported with type 1 or 2 according to the sign of the Poincare index of the (quantised) field, in the same way by the regular-grid and the unstructured-mesh tracker, and with type 0 on triangles that extend in time.",
  "all triangles, meshes, time steps and non-degenerate fields","infinitely many fields and meshes",
  I+"filters/critical_point_tracker_2d_regular.hh: check_simplex",I+"filters/critical_point_tracker_2d_unstructured.hh: check_simplex",I+"mesh/simplicial_unstructured_extruded_2d_mesh.hh: get_triangle_chi",I+"mesh/simplicial_unstructured_2d_mesh.hh: build_triangles")
p("C146","What a data stream hands to its callback",
  "start() followed by finish() calls the callback once per available time step (for file streams: up to the first missing file), in increasing order with the step number, with the frame smoothed in space if configured, then perturbed, then clamped, and, with a temporal kernel, with the centred convolution in time of these frames. With clamping every value delivered lies in the given range, also after temporal smoothing with non-negative weights of sum one.",
  "all configurations, frames, numbers of steps and noise values","all frame sequences and noise outcomes",
  I+"ndarray/stream.hh: start, finish, modified_callback",I+"numeric/clamp.hh: clamp",I+"filters/streaming_filter.hh: push, finish")
p("C147","Asynchronous reading in data streams",
  "With asynchronous reading, in every interleaving of the reader thread and the caller: the callback never sees a frame under a wrong step number, out of order, or twice; start() never deadlocks and always returns; and every frame is delivered.",
  "all schedules of the two threads, all numbers of steps and frames","schedules cannot be enumerated by tests",
  I+"ndarray/stream.hh: start (async branch)")
p("C148","Which data a NetCDF stream reads for a time step",
  "For files with a record dimension, time step k of the stream is the k-th record of all the files in order, every record being read once; otherwise it is file k. The element (x, y, z) of component c of the array is the value of the c-th variable at that record and at the position of the element in the requested block, in one, two and three dimensions.",
  "all numbers of files, records per file, variables, block positions and sizes","all file layouts",
  I+"ndarray/stream.hh: request_timestep_file_nc, configure (NetCDF)",I+"ndarray/ndarray_base.hh: read_netcdf")
p("C149","The MPAS layer at a depth",
  "For tops that do not increase a depth lies in at most one layer (at or below its top, above the next top). The bisection always ends, answers -1 exactly for depths above the first or not above the last top, and otherwise a layer that contains the depth. The linear search gives the same answer.",
  "all lists of tops and all depths","termination and the choice of the layer for every list of tops",
  I+"numeric/mpas.hh: locate_mpas_layer_brute_force, locate_mpas_layer_bisection")
p("C150","A point in an MPAS cell",
  "A point is reported in a cell exactly if it is on the inner side of the planes through the origin and each side. The answer depends on the direction of the point only; cells are convex; vertices of a convex counterclockwise cell and their combinations with non-negative weights are in it; neighbouring cells have no common point off their common side; cells given clockwise reject their interior.",
  "all cells with any number of vertices and all points","geometry of every cell and point",
  I+"numeric/mpas.hh: point_in_mpas_cell")
p("C151","The MPAS cell that contains a point",
  "A cell that is returned contains the point, for every mesh, hint and search tree. In a Voronoi mesh every point is located with every hint; a point in one cell only gets that cell whatever the hint.",
  "all meshes, points and hints","all meshes and search histories (hints)",
  I+"mesh/mpas_mesh.hh: point_in_cell_i, locate_cell_i, verts_i_on_cell_i, verts_i_coords")
p("C152","Identifiers and positions in MPAS files",
  "The maps between identifiers and positions are inverse to each other for distinct identifiers, unknown identifiers give -1, and the shortcut for consecutive identifiers agrees with the table.",
  "all lists of identifiers","all numberings of files",
  I+"mesh/mpas_mesh.hh: cid2i, eid2i, vid2i, i2cid, i2vid, read_netcdf")
p("C153","Values from MPAS cells to vertices",
  "A vertex at the boundary gets 0, a vertex with an invalid cell value NaN; any other vertex gets a combination of its three cell values with weights of sum one that do not depend on the values: those of the point of the plane of the centres that is nearest to the vertex. Constants are reproduced, affine fields at vertices in the plane of the centres.",
  "all meshes, vertices and fields","all fields and geometries",
  I+"mesh/mpas_mesh.hh: initialize_c2v_interpolants, interpolate_c2v",I+"numeric/inverse_linear_interpolation_solver.hh: inverse_lerp_s2v3")
p("C154","Velocity evaluation in MPAS ocean data",
  "An evaluation that succeeds used a cell that contains the point and the layer that contains its depth, interpolates linearly in depth between combinations of the vertex values of the two tops with Wachspress weights, stays within the range of these values for plane convex cells, and finds the layer whenever there is one, with every hint.",
  "all meshes, points, hints, tops and fields","all positions and hints along every trajectory",
  I+"filters/particle_tracer_mpas_ocean.hh: eval_v_with_vertical_velocity")
p("C155","Seeds for MPAS particles",
  "Seeds on a grid of angles and depths are at the distance radius plus depth, at equally spaced values including both ends, in the order of the grid without points that are in no cell, and tagged with a cell that contains them. Seeds at grid points are at the depths of the layers of their cell.",
  "all grids, meshes and layer thicknesses","all grids and meshes",
  I+"filters/particle_tracer_mpas_ocean.hh: initialize_particles_latlonz, initialize_particles_at_grid_points",I+"mesh/mpas_mesh.hh: read_netcdf (accRestingThickness)")
p("C156","Numbers of integration steps for MPAS particles",
  "The steps between two time steps of the data cover exactly the interval between them, with the requested number of steps per day, for every length of the interval.",
  "all interval lengths and settings","all interval lengths",
  I+"filters/particle_tracer_mpas_ocean.hh: update_timestep",I+"filters/particle_tracer.hh: delta")
p("C157","Blob filaments: the whole run",
  "For every series of timesteps and every order in which cells are visited, a run of the tracker is defined, and its intersections are exactly those the cell test reports for the triangles of the space-time mesh, each tested once with the data of its own timesteps (with the scaling factor in force); related cells are exactly the cofaces of these triangles. The result does not depend on the order of execution.",
  "all series, meshes, cell tests and orders of execution","all numbers of timesteps and all schedules of threads",
  I+"filters/xgc_blob_filament_tracker.hh: update_timestep, update, push_field_data_snapshot, check_simplex",I+"filters/xgc_tracker.hh: advance_timestep")
p("C158","Ordinal output per timestep",
  "In ordinal-only mode the lines written for a timestep are built from the triangles of that timestep and the data of that timestep.",
  "all series and timesteps","every timestep of every series",
  I+"filters/xgc_blob_filament_tracker.hh: update_timestep (ordinal_only)")
p("C159","Filament surfaces",
  "The surface has one point per intersection; its triangles join points on a common cell, for every order of the cells; a cell with three points contributes its triangle, with four points a quadrilateral; every interval of the series contributes.",
  "all intersection tables, cell orders and series","all tables and all orders of parallel insertion",
  I+"filters/xgc_blob_filament_tracker.hh: build_critical_surfaces, check_penta",I+"features/feature_surface_set.hh")
p("C160","Archives of intersections",
  "Intersections written to an archive and read back give the same related cells and so the same surfaces.",
  "all runs","every table of intersections",
  I+"filters/xgc_blob_filament_tracker.hh: read_intersections_binary, write_intersections, finalize")
p("C161","Angles across the seam",
  "The plane numbers of the vertices of a simplex between the last and the first plane are made consecutive, those of other simplices are unchanged.",
  "all numbers of planes and all simplices","every number of planes",
  I+"filters/xgc_blob_filament_tracker.hh: simplex_indices, simplex_values")
p("C162","Post-processing of filament curves",
  "Post-processing of non-empty curves is defined; every resulting curve has at least two points, all maxima, in order from a rotation of the poloidal points of one input curve; with virtual planes it extends over more than the virtual planes between two planes; types are smoothed only where the two neighbours on both sides agree; curves of maxima with at least two poloidal points survive unchanged, and no run of two or more maxima is lost.",
  "all curve sets","every sequence of types, loop or not",
  I+"filters/xgc_blob_filament_tracker.hh: post_process_curves",I+"features/feature_curve_set.hh: split_all, filter")
p("C163","Velocities of filament points",
  "A poloidal point inside a timestep gets the differences of psi and theta to a nearest reachable point of the same plane in the next timestep, nearest in number of triangle edges, exactly if one is reachable; otherwise the velocity is left alone.",
  "all surfaces and points","all triangulations, search over an unbounded graph",
  I+"filters/xgc_blob_filament_tracker.hh: post_process_surfaces")
p("C164","Woven data",
  "The woven data have the function's value at every vertex of a grid that spans the scaled square with equal distances; the gradient functions are the derivatives of the woven function; data rotate rigidly with time, with period 2 pi, and their critical points at time 0 are exactly the places where the one coordinate is a multiple of pi and the other is half a period off; a part of the data is the restriction of the whole; the capped gradient is the gradient where the value is below the cap and zero elsewhere.",
  "all grid sizes, parts, places and times","all sizes and all real places and times",
  I+"ndarray/synthetic.hh: woven_function_2Dt, woven_grad_x_2Dt, woven_grad_y_2Dt, synthetic_woven_2D, synthetic_woven_2D_part, synthetic_capped_woven_grad_2D")
p("C165","Double gyre",
  "The double gyre has a stream function (so no divergence), nothing leaves the domain at any time, the flow is periodic in time, and the grid has these velocities, with no flow through the vertices on the boundary.",
  "all places, times, parameters and grid sizes","all real places and times",
  I+"ndarray/synthetic.hh: double_gyre, synthetic_double_gyre")
p("C166","ABC flow",
  "The ABC flow is free of divergence and its curl is the velocity; every vertex of the grid has the velocity at its place in the cube of side 2 pi, and velocities on opposite sides agree.",
  "all parameters, places and grid sizes","all real parameters and places",
  I+"ndarray/synthetic.hh: synthetic_abc_flow")
p("C167","Moving extremum",
  "Every element is the squared distance of its vertex from a centre that moves with constant velocity: never negative, zero exactly at the centre, and strictly least at a vertex less than half a cell from the centre in every direction; the gradient generated for the same data on an unstructured mesh is its gradient.",
  "all dimensions, shapes, centres, velocities and times","all dimensions and shapes, all times",
  I+"ndarray/synthetic.hh: synthetic_moving_extremum, synthetic_moving_extremum_unstructured, synthetic_moving_extremum_grad_unstructured")
p("C168","Ramps, volcano and merger",
  "The zero level of the moving ramp is the plane at x0 + rate t, that of the dual ramp the two planes at the distance rate t from x0; the volcano is positive, at most 1, and 1 exactly at the vertices at the given distance from its centre; the merger is positive, at most 1, and 1 exactly at the two centres, which coincide exactly when cos t = 0.",
  "all shapes, places, times and parameters","all shapes and all real places and times",
  I+"ndarray/synthetic.hh: synthetic_moving_ramp, synthetic_moving_dual_ramp, synthetic_volcano, merger_function_2Dt")
p("C169","Reference-counted pointers",
  "Over every history of construction, copying, assignment, swap, reset and destruction, and for every schedule of threads that destroy their handles, no released memory is used, nothing is released twice, a live handle refers to a live object, and an object is released exactly when its last handle goes.",
  "all histories of operations and all schedules of destruction","all histories and schedules",
  I+"utils/async_ptr.hh: async_ptr, operator=, reset, swap, clear")
p("C170","Broadcast and scatter of serialized values",
  "After bcastv every rank has the root's value; after scatterv rank r has the root's r-th value; whatever the ranks had before and whatever ranks other than the root pass.",
  "all numbers of ranks, roots, values and previous values","all numbers of ranks and all values",
  I+"utils/bcast.hh: bcastv",I+"utils/scatter.hh: scatterv")
p("C171","Strings and option lists",
  "starts_with and ends_with decide prefixes and suffixes (ends_with_lower without regard to case); splitting at commas gives back the pieces that were joined; a list of post-processing operations is applied in its order, an unknown word is an error wherever it stands, and every operation has its documented effect.",
  "all strings and all lists of operations","all strings",
  I+"utils/string.hh: starts_with, ends_with, ends_with_lower, split",I+"filters/feature_curve_set_post_processor.hh: parse_ops, filter")
p("C172","Formats from file names",
  "The format of a file is the one its extension names, in any case, independent of the order of the tests, for input files and for output files; a format given by the user is obeyed; removing the extension leaves the rest of the name.",
  "all file names and formats","all strings",
  I+"io/util.hh: file_extension, remove_file_extension",I+"geometry/write_polydata.hh: write_polydata",I+"filters/json_interface.hh: configure (output_format)")
p("C173","Series of files",
  "Different timesteps (and different ranks' pieces) have different file names, and names sort in the order of the timesteps.",
  "all patterns, widths and timesteps","all timesteps",
  I+"io/util.hh: series_filename, glob",I+"geometry/write_polydata.hh: write_polydata (pvtp)")
p("C174","Region of interest of an XGC mesh",
  "The region consists of exactly the vertices whose poloidal angle lies between the two given angles and whose normalised flux lies between the two given bounds; the mesh made of it has these vertices in their order, with their coordinates and fluxes, and exactly the triangles all of whose vertices are in the region.",
  "all meshes, fluxes, angles and bounds","all meshes and bounds",
 I+"mesh/simplicial_xgc_2d_mesh.hh: initialize_roi, new_roi_mesh")
p("C175","Magnetic field lines",
  "The field is interpolated linearly in the triangle containing the point and is zero outside; tracing for a given angle ends at that angle (in either direction) unless the line leaves the mesh; every step is a Runge-Kutta step of the field-line equation; the planes of a traced field line belong to the planes of the mesh; the next node of a point is the vertex of its triangle with the largest weight.",
  "all meshes, fields, starting points, angles and numbers of steps","all fields and numbers of steps",
 I+"mesh/simplicial_xgc_2d_mesh.hh: eval_b, magnetic_map, magnetic_map_2pi_total_B, nextnode, nearest",I+"io/xgc_eq.hh: eval_b, eval_L")
p("C176","Gradients on unstructured meshes",
  "The gradient at a vertex is the mean over its triangles of the gradient of the linear interpolant; it is exact for linear fields, for scalar and for vector fields; the Jacobian of the gradient of a linear field is zero.",
  "all meshes and fields","all meshes and fields",
 I+"mesh/simplicial_unstructured_2d_mesh.hh: scalar_gradient, vector_gradient, scalar_gradient_jacobian")
p("C177","Derived magnetic fields",
  "The unit field has norm one and the direction of the field; the curl of the unit field and the perturbed field are the curl in cylindrical coordinates and the curl of the potential along the unit field; the total field is the sum of the background and the perturbation.",
  "all meshes, background fields and potentials","all fields",
 I+"mesh/simplicial_xgc_2d_mesh.hh: initialize_bfield0, initialize_curl_bfield0, derive_delta_B, derive_total_B")
p("C178","Smoothing kernels",
  "The kernel of a vertex contains exactly the vertices reachable along edges inside the disc of radius three sigma, each once in ascending order, with its Gaussian weight.",
  "all meshes, vertices and sigmas","all meshes",
 I+"mesh/simplicial_unstructured_2d_mesh.hh: build_smoothing_kernel")
p("C179","Smoothed fields and their derivatives",
  "The smoothed field, its gradient and its Jacobian are the convolution of the field with the Gaussian kernel and the first and second derivatives of that convolution; constant fields stay constant.",
  "all meshes, fields and sigmas","all fields",
 I+"mesh/simplicial_unstructured_2d_mesh.hh: smooth_scalar_gradient_jacobian")
p("C180","XGC units",
  "Reading a units file sets every member to the last number assigned to it in the file and leaves the others at their defaults, or reports failure.",
  "all files (sequences of lines) and all number formats","all texts",
  I+"io/xgc_units.hh: xgc_units_t::read")
p("C181","Numbers of planes from the XGC input file",
  "The numbers of planes and of wedges are the last numeric values assigned in the input file, whatever sections, comments and other assignments it contains.",
  "all files (sequences of lines)","all texts",
  I+"io/xgc_stream.hh: probe_nphi_iphi")
p("C182","Steps of XGC and MPAS runs",
  "The step of a file is recovered from its name; a stream delivers the timesteps from the start on, each exactly once, in order, with its index, and as many as asked for.",
  "all sets of files, starts and numbers of steps, and any number of calls","all histories of calls",
  I+"io/xgc_stream.hh: filename2step, filename, filename_step, initialize",I+"io/xgc_stream_h5.hpp: advance_timestep",I+"io/xgc_stream_adios2.hpp: advance_timestep",I+"io/mpas_stream.hh: initialize, advance_timestep")
p("C183","The triangles of a tube",
  "The tube around a curve with n >= 2 points and k patches has k vertices per point and 2k triangles per segment, all indices valid; for k >= 3 it is a consistently oriented cylinder: every edge not on the first or last ring belongs to exactly two triangles, in opposite directions. Arrays are only read in bounds if every point has a colour.",
  "all curves, colours, numbers of patches and radii","all curves and numbers of patches",
  I+"geometry/curve2tube.hh: curve2tube")
p("C184","The shape of a tube",
  "Every vertex of the tube lies at distance radius from its curve point in the plane orthogonal to the curve, evenly spaced around it, with the outward unit normal; all vertices are numbers.",
  "all curves, numbers of patches and radii (real arithmetic)","all curves, a continuum",
  I+"geometry/curve2tube.hh: curve2tube",I+"numeric/vector_normalization.hh: vector_normalization2_3",I+"numeric/cross_product.hh: cross_product",I+"numeric/vector_assignment.hh: vector_assign_weighted_addition3")
p("C185","The colours of a tube",
  "The vertices around a curve point carry the colour of that point.",
  "all curves and colours","all curves",
  I+"geometry/curve2tube.hh: curve2tube")
p("C186","The hash function",
  "Keys of equal length that differ only within one aligned group of four bytes (or within the last one to three) never collide, nor do different seeds on the same key; keys that differ in two groups can collide.",
  "all keys, positions and seeds","2^32 and more cases for every key",
  I+"basic/murmurhash2.hh: murmurhash2")
p("C187","Cached kernels and interpolants",
  "A cached smoothing kernel or interpolant is the one that would be computed for the mesh and parameters at hand.",
  "all meshes, parameters and sequences of requests in one directory","all histories of the cache directory",
  I+"mesh/simplicial_unstructured_2d_mesh.hh: build_smoothing_kernel_cached, default_smoothing_kernel_filename",I+"mesh/simplicial_xgc_3d_mesh.hh: initialize_interpolants_cached, default_interpolant_filename",I+"ndarray.hh: hash")
X=I+"mesh/simplicial_unstructured_extruded_2d_mesh_explicit.hh: "
p("C188","Cells of the explicit extruded mesh",
  "For an explicit extruded mesh whose tetrahedra fill one period between two equal planes, the integer ids number the edges, triangles and tetrahedra of all periods one to one; adding n(d) moves a cell to the next period; cells shared by two periods have one id.",
  "all periods (any tetrahedra between two corresponding planes), all ids","all meshes, infinitely many periods",
  X+"initialize, n, get_simplex")
p("C189","Sides and cofaces in the explicit extruded mesh",
  "sides(d, k) is the set of the facets of a cell and side_of(d, k) the set of the cells it is a facet of, including those in the previous period for a cell in the lower plane.",
  "all meshes, all ids","all meshes, infinitely many periods",
  X+"sides, side_of, normalize")
W=I+"ndarray/writer.hh: "
p("C190","Configuring the writer of data series",
  "A configuration is accepted exactly if nd, filename and format are given, every field has the documented form and, for the format nc, a variable is given; what is left out gets the documented default.",
  "all JSON objects","all configurations",
  W+"configure, write_netcdf")
p("C191","NetCDF files written from a data series",
  "For every series of arrays, the file of a time step has the array's dimensions, slowest first, after an unlimited time dimension if asked for, and each variable holds its data; reading the series back with the NetCDF stream gives the same arrays in the same order.",
  "all series of arrays, names and dimensions","all data and all dimensions",
  W+"filename, write, write_netcdf, consume",I+"ndarray/ndarray_base.hh: to_netcdf, to_netcdf_unlimited_time, read_netcdf")
p("C192","Writing NetCDF stays inside memory",
  "Writing an array reads nothing outside the array, its list of dimensions or the vectors describing the block.",
  "all arrays and configurations","memory errors show only under instrumentation",
  W+"write_netcdf",I+"ndarray/ndarray_base.hh: to_netcdf, to_netcdf_unlimited_time")
p("C193","Groups of arrays",
  "After any sequence of set calls, get returns for every key the array set last, and has tells whether there is one.",
  "all sequences of calls","all histories",
  I+"ndarray/ndarray_group.hh: has, set, get, get_ptr")
W=I+"mesh/simplicial_unstructured_3d_mesh.hh: "
p("C194","Smoothing kernel of a tetrahedral mesh",
  "Building the smoothing kernel terminates on every legal tetrahedral mesh; the kernel of a vertex lists in ascending order exactly the vertices reachable along mesh edges inside the ball of radius 3 sigma, each once, with the Gaussian weight of its distance.",
  "all legal tetrahedral meshes, coordinates and sigma","all meshes and all positions of the vertices",
  W+"build_smoothing_kernel",I+"algorithms/bfs.hh: bfs")
p("C195","Smoothed fields on tetrahedral meshes",
  "Smoothing gives the Gaussian-blurred field at every vertex, its gradient and its Hessian there, whatever the output arrays contained before.",
  "all kernels, fields, coordinates and sigma","all real-valued fields; derivatives are limits",
  W+"smooth_scalar_gradient_jacobian")
W=I+"mesh/simplicial_xgc_3dff_mesh.hh: "
p("C196","Tetrahedra of a field-following mesh",
  "The tetrahedron numbers of a field-following mesh run through one copy of the unit mesh between every plane and the next, periodically; each has four different vertices in ascending order and different numbers are different tetrahedra.",
  "all unit meshes, numbers of planes and tetrahedron numbers","all meshes and all numbers of planes",
  W+"n, get_simplex")
p("C197","Initialising and querying a field-following mesh",
  "A field-following mesh can be initialised from a file or created together with its file, and each of its simplices can be listed and looked up again.",
  "all meshes, files and simplices","all meshes and all states of the file system",
  W+"initialize_ff_mesh, find_simplex, get_simplex, n")
W=I+"numeric/"
p("C198","Small matrix functions compute what they say",
  "The products, transpositions (also in place), traces, sums, unit matrix, symmetric and antisymmetric parts and cross products are those of linear algebra, and what is behind the output in memory is not touched.",
  "all matrices, of any size where the function is generic","all numbers and sizes",
  W+"matrix_multiplication.hh: matrix_matrix_multiplication, matrix2x2_matrix2x2_multiplication, matrix3x3_vector3_multiplication",W+"transpose.hh: transpose, transpose2x2, transpose3x3, transpose4x4, transpose3x2, transpose2x3, transpose4x3",W+"trace.hh: trace, trace2, trace3",W+"symmetric_matrix.hh: make_symmetric2x2, make_symmetric3x3",W+"matrix_decomposition.hh: matrix_symmetric_decomposition_3x3, matrix_antisymmetric_decomposition_3x3",W+"eye.hh: eye3",W+"submatrix.hh: submatrix_3x3_2x2",W+"cross_product.hh: cross_product",W+"inner_product.hh: inner_product3",W+"vector_dot_product.hh: vector_dot_product3")
p("C199","Matrix products stay inside the output they declare",
  "A matrix product called with arrays of the declared types writes only inside the output array.",
  "all matrices and output arrays","memory errors show only under instrumentation",
  W+"matrix_multiplication.hh: matrix3x4_matrix4x2_multiplication, matrix_matrix_multiplication")
p("C200","Bilinear and trilinear interpolation",
  "Interpolation reproduces the corner values, is exact for fields linear in each coordinate and stays between the bounds of the corner values inside the cell; the four versions of bilinear interpolation agree.",
  "all corner values and coordinates","all real numbers",
  W+"bilinear_interpolation.hh: bilinear_interpolation3, bilinear_interpolation3_location",W+"trilinear_interpolation.hh: trilinear_interpolation3")
W=I+"mesh/"
p("C201","Meshes written to VTU files can be read again",
  "Writing an unstructured triangle or tetrahedral mesh to a VTU file and reading it gives the same mesh: vertices, cells, their numbers, orientation and neighbours.",
  "all legal meshes and coordinates","all meshes",
  W+"simplicial_unstructured_3d_mesh.hh: from_vtu, to_vtu",W+"simplicial_unstructured_2d_mesh.hh: from_vtu, to_vtu",W+"simplicial_unstructured_mesh.hh: from_vtk_unstructured_grid_file, to_vtk_unstructured_grid_file")
p("C202","Reading a file into a mesh that was in use",
  "After reading a file a mesh behaves like a new mesh that has read the same file, whatever it contained before.",
  "all meshes, files and histories","all histories of the object",
  W+"simplicial_unstructured_3d_mesh.hh: from_vtu, initialize, build_tetrahedra, build_triangles, build_edges")
W=I+"numeric/"
p("C203","Critical values and poles of a rational inequality",
  "The quantised solvers of P(x)/Q(x) >= 0 cut the line exactly at the cells in which the multiplicities of the roots of P and of Q differ, in increasing order, and treat a cell as a pole exactly when Q has the larger multiplicity.",
  "all lists of roots with multiplicities and all quantisation factors","all root configurations",
  W+"cubic_rational_inequality_solver.hh: solve_cubic_rational_inequality_quantized",W+"quadratic_rational_inequality_solver.hh: solve_quadratic_rational_inequality_quantized")
p("C204","Rational inequality solvers return the solution set",
  "At every grid point outside the cells of the roots, the returned set contains the point if and only if P/Q is nonnegative there.",
  "all polynomials of degree up to 2 or 3, all quantisation factors, all grid points","all real coefficients and an infinite grid",
  W+"cubic_rational_inequality_solver.hh: solve_cubic_rational_inequality_quantized",W+"quadratic_rational_inequality_solver.hh: solve_quadratic_rational_inequality_quantized",W+"basic_interval.hh: sample",W+"disjoint_intervals.hh: join")
p("C205","Rational inequality solvers on degenerate input",
  "A zero numerator gives the whole line and a zero denominator the empty set; the solvers read nothing outside their coefficients; a pole is not in the solution set.",
  "all coefficient arrays","all inputs; reads past an array are silent",
  W+"quadratic_rational_inequality_solver.hh: solve_quadratic_rational_inequality_quantized",W+"cubic_rational_inequality_solver.hh: solve_cubic_rational_inequality_quantized",W+"polynomial.hh: polynomial_equals_to_zero")
W=I+"utils/"
p("C206","Hue, saturation and intensity to colours",
  "The converted colour has the given intensity as the mean of its components and the given saturation (its smallest component is intensity times one minus saturation) before clamping; the components returned lie in [0,1], and nothing is clamped when the colour can be represented.",
  "all hues, saturations and intensities","all real numbers",
  W+"zcolor.h: HSI2RGB, validColor")
p("C207","Colour tables",
  "A table of n colours has n colours with components 0..255, different features get different colours, and the random table is a rearrangement of the regular one.",
  "all numbers of colours and all shuffles","all sizes; the shuffle is random",
  W+"random_color.hh: generate_colors, generate_random_colors")
W=I+"filters/"
p("C208","Threads, accelerators and devices of a filter",
  "A comma-separated list of numbers selects exactly these devices in this order; any other text throws and changes nothing; the names of backends and accelerators select them and nothing else; a new filter has at least one thread.",
  "all lists of device numbers, all texts, all machines","all texts; the number of threads depends on the machine",
  W+"filter.hh: set_device_ids, use_thread_backend, use_accelerator, default_nthreads",I+"utils/string.hh: split")
#@MORE

out = os.path.join(os.path.dirname(os.path.abspath(__file__)), "..", "properties.jsonl")
with open(out, "w") as f:
    for q in P: f.write(json.dumps(q) + "\n")
print(len(P), "properties")
