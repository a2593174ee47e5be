{"id": "C01", "title": "union_find answers connectivity exactly", "statement": "After any history of add(i) and unite(i,j) on added elements, same_set(i,j) returns true exactly when i and j are linked by a chain of united pairs, and the histories never hit a missing element.", "quantifier": "all element types, all finite histories of add / unite / find / same_set calls, in any order", "why_tests_cant": "A test runs a few histories; the wrong answer of a union-by-size/path-compression structure appears only for particular tree shapes reached by particular histories.", "anchors": ["include/ftk/basic/union_find.hh: union_find::add, unite, find, same_set"]}
{"id": "C02", "title": "union_find::find terminates, returns a canonical member and is observationally pure", "statement": "find(i) on an added element terminates, returns a member of i's set which is a fixed point of find, returns the same value for two elements iff they are in the same set, and path compression performed by find changes no later answer.", "quantifier": "all reachable union-find states, all elements", "why_tests_cant": "The compression loop writes through a reference aliasing parent(i0); whether this can loop or corrupt another set depends on every tree shape.", "anchors": ["include/ftk/basic/union_find.hh: union_find::find, parent"]}
{"id": "C03", "title": "union_find::get_sets is the partition", "statement": "get_sets() returns every added element in exactly one set; two elements are in the same returned set iff same_set; no returned set is empty.", "quantifier": "all reachable union-find states", "why_tests_cant": "Quantifies over every partition reachable by any history.", "anchors": ["include/ftk/basic/union_find.hh: union_find::get_sets"]}
{"id": "C04", "title": "simple_union_find answers connectivity exactly", "statement": "For a simple_union_find(n), after any sequence of unite/find/same_set with indices below n, same_set(i,j) is true exactly when i and j are connected by united pairs; an index >= n is undefined behaviour.", "quantifier": "all n, all histories over indices < n", "why_tests_cant": "Same as C01; path halving plus union by size produce shapes no finite test enumerates.", "anchors": ["include/ftk/basic/simple_union_find.hh: simple_union_find::unite, find, same_set"]}
{"id": "C05", "title": "duf used sequentially: representative is the least member of the component", "statement": "After any sequential history of unite/find, find(i) returns the smallest element connected to i by united pairs, so the result does not depend on the order of the unite calls.", "quantifier": "all sequential histories, all linearly ordered element types", "why_tests_cant": "Order independence ranges over all permutations of all unite lists.", "anchors": ["include/ftk/basic/duf.hh: duf::unite, duf::find, duf::get_roots"]}
{"id": "C06", "title": "duf under concurrent unite calls", "statement": "Under every interleaving of concurrent unite calls, the parent links stay acyclic (every find terminates) and two elements end in one component only if united pairs connect them; and if they are connected by united pairs they end in one component.", "quantifier": "all numbers of threads, all interleavings of the find/lock/link steps of unite", "why_tests_cant": "A lost update needs a precise interleaving of two threads between find and the locked write.", "anchors": ["include/ftk/basic/duf.hh: duf::unite, duf::find (std::lock_guard)", "include/ftk/filters/critical_point_tracker.hh: trace_critical_points_offline"]}
{"id": "C07", "title": "parallel_for runs every task exactly once", "statement": "parallel_for(ntasks, nthreads, f) with ntasks >= 0 and nthreads >= 1 invokes f(i) exactly once for each 0 <= i < ntasks, whatever the number of threads and interleaving.", "quantifier": "all ntasks, all nthreads >= 1, all interleavings of the workers", "why_tests_cant": "Quantifies over all task and thread counts and schedules.", "anchors": ["include/ftk/object.hh: object::parallel_for"]}
{"id": "C08", "title": "lattice integer indexing is a bijection", "statement": "For a lattice with positive sizes and arbitrary starts, to_integer and from_integer are mutually inverse between the lattice's points and [0, n()).", "quantifier": "all dimensions, all starts, all positive sizes, all points / all indices", "why_tests_cant": "Mixed-radix arithmetic must be right for every size vector.", "anchors": ["include/ftk/mesh/lattice.hh: lattice::reshape, to_integer, from_integer, n, contains"]}
{"id": "C09", "title": "lattice partition cores tile the domain", "statement": "When partition(np, given, ghosts) produces cores at all, it produces exactly np of them, they are pairwise disjoint, non-empty, lie in the lattice and their union is the whole lattice.", "quantifier": "all lattices, all np >= 1, all given vectors", "why_tests_cant": "Uneven remainders interact with the recursive slicing in all dimensions.", "anchors": ["include/ftk/mesh/lattice_partitioner.hh: lattice_partitioner::partition, prime_factorization"]}
{"id": "C10", "title": "partition extents contain cores and stay in the domain", "statement": "Every ghost extent contains its core, is contained in the lattice, and contains every lattice point within the ghost width of the core.", "quantifier": "all lattices, cores and ghost widths", "why_tests_cant": "Clamping at each boundary must be right for every offset.", "anchors": ["include/ftk/mesh/lattice_partitioner.hh: add_ghost, get_ext, get_core"]}
{"id": "C11", "title": "prime_factorization is a prime factorization", "statement": "For n >= 1, prime_factorization(n) returns primes in decreasing order whose product is n.", "quantifier": "all n >= 1", "why_tests_cant": "Quantifies over all n.", "anchors": ["include/ftk/mesh/lattice_partitioner.hh: prime_factorization"]}
{"id": "C12", "title": "simplicial mesh element ids round-trip", "statement": "to_integer followed by from_integer is the identity on valid mesh elements and distinct elements get distinct integers.", "quantifier": "all mesh bounds in all dimensions, all element dimensions, all types", "why_tests_cant": "Ids are the keys of all distributed maps; one collision anywhere corrupts tracking.", "anchors": ["include/ftk/mesh/simplicial_regular_mesh.hh: simplicial_regular_mesh_element::to_integer, from_integer"]}
{"id": "C13", "title": "element_for enumerates every element exactly once", "statement": "element_for over a lattice and scope invokes the callback exactly once for every (corner, type) with the corner in the lattice and the type in the scope's table.", "quantifier": "all lattices, all element dimensions, all scopes, all thread counts", "why_tests_cant": "Ranges over all lattices and schedules.", "anchors": ["include/ftk/mesh/simplicial_regular_mesh.hh: element_for, from_work_index", "include/ftk/object.hh: parallel_for"]}
{"id": "C14", "title": "sides and side_of are dual", "statement": "For every element e of dimension d, f is among e.sides iff e is among f.side_of.", "quantifier": "all mesh dimensions, all element dimensions, all corners and types", "why_tests_cant": "Incidence duality is what makes tracing complete; it ranges over all simplex types of all dimensions.", "anchors": ["include/ftk/mesh/simplicial_regular_mesh.hh: sides, side_of, enumerate_unit_simplex_sides, enumerate_unit_simplex_side_of"]}
{"id": "C15", "title": "unit cube subdivision is the Kuhn triangulation", "statement": "subdivide_unit_cube(n) returns n! simplices, each a chain of n+1 cube vertices from 0...0 to 1...1 raising one coordinate at a time, all distinct and including every such chain.", "quantifier": "all n", "why_tests_cant": "Recursive construction; holds for all n, tests check n <= 4.", "anchors": ["include/ftk/mesh/simplicial_regular_mesh.hh: subdivide_unit_cube"]}
{"id": "C16", "title": "ordinal and interval types partition all types", "statement": "For each dimension, every element type is exactly one of ordinal or interval; an ordinal element has all its vertices in one timestep, an interval element spans exactly two consecutive ones.", "quantifier": "all mesh dimensions, all element dimensions and types", "why_tests_cant": "Ranges over all types of all dimensions.", "anchors": ["include/ftk/mesh/simplicial_regular_mesh.hh: derive_ordinal_and_interval, vertices"]}
{"id": "C17", "title": "bfs visits exactly the reachable nodes, once each", "statement": "bfs calls the visitor exactly once for the seed and for each node reachable through accepted nodes, and for no other, and terminates on finite graphs.", "quantifier": "all finite graphs, seeds, acceptance criteria", "why_tests_cant": "Ranges over all graphs.", "anchors": ["include/ftk/algorithms/bfs.hh: bfs"]}
{"id": "C18", "title": "extract_connected_components returns the components of the qualified set", "statement": "Two qualified elements are in the same returned component iff they are linked by a path of qualified neighbors; every qualified element appears in exactly one component.", "quantifier": "all finite qualified sets and symmetric neighbor functions", "why_tests_cant": "Ranges over all graphs.", "anchors": ["include/ftk/algorithms/cca.hh: extract_connected_components", "include/ftk/algorithms/cca_bfs.hh"]}
{"id": "C19", "title": "Hoshen-Kopelman labelling", "statement": "After hoshen_kopelman_2d on an m x n 0/1 image: zero cells stay zero, two non-zero cells get equal labels iff 4-connected, the labels are exactly 1..count, and no access is out of bounds.", "quantifier": "all image sizes and contents", "why_tests_cant": "The equivalence table is sized nelem/2, which is only wrong for particular contents.", "anchors": ["include/ftk/algorithms/hoshen_kopelman.hh: hoshen_kopelman_2d, uf_find, uf_union, uf_make_set"]}
{"id": "C20", "title": "dijkstra returns a shortest path", "statement": "dijkstra returns a path from source to destination of minimum total weight whenever one exists, for non-negative weights.", "quantifier": "all finite graphs with non-negative weights", "why_tests_cant": "Ranges over all graphs and weights.", "anchors": ["include/ftk/algorithms/dijkstra.hh: dijkstra"]}
{"id": "C21", "title": "connected components decompose into simple curves", "statement": "connected_component_to_linear_components returns simple curves whose consecutive nodes are adjacent; every node with at most two neighbors (in the component, non-special) is in exactly one curve; nodes of degree above two are in none.", "quantifier": "all finite graphs with symmetric adjacency", "why_tests_cant": "Ranges over all graph shapes including loops and branch points.", "anchors": ["include/ftk/geometry/cc2curves.hh: connected_component_to_linear_components, is_loop"]}
{"id": "C22", "title": "tracking-graph event type matches the number of in and out features", "statement": "An event is birth, death, merge, split, compound exactly according to how many left and right features it has.", "quantifier": "all event cardinalities", "why_tests_cant": "Ranges over all cardinalities.", "anchors": ["include/ftk/tracking_graph/event.hh: event::type"]}
{"id": "C23", "title": "adjust_time makes time monotone and only moves interval points", "statement": "After adjust_time the times of the curve's points are monotone in the curve's direction whenever the ordinal points were, and ordinal points keep their time.", "quantifier": "all curves", "why_tests_cant": "Ranges over all point sequences.", "anchors": ["include/ftk/features/feature_curve.hh: adjust_time"]}
{"id": "C24", "title": "split keeps every point and separates types", "statement": "split returns sub-curves each of one type, in order, whose concatenation is the original curve.", "quantifier": "all curves", "why_tests_cant": "Loss of a point at a segment boundary is invisible unless the right type sequence is tested.", "anchors": ["include/ftk/features/feature_curve.hh: split"]}
{"id": "C25", "title": "intercept returns exactly the points of the time window", "statement": "intercept(t0,t1) returns, in order, exactly the points whose time lies in the window, and nothing when the curve's time range does not meet the window.", "quantifier": "all curves and windows", "why_tests_cant": "Boundaries and empty curves.", "anchors": ["include/ftk/features/feature_curve.hh: intercept"]}
{"id": "C26", "title": "rotate and reorder only permute the points", "statement": "rotate keeps the cyclic order of a loop and leaves a non-loop unchanged; reorder returns the same points in the same or reversed order with non-decreasing end times.", "quantifier": "all curves", "why_tests_cant": "Ranges over all curves.", "anchors": ["include/ftk/features/feature_curve.hh: rotate, reorder"]}
{"id": "C27", "title": "curve statistics bound every point", "statement": "After update_statistics every point's scalar values, coordinates and times lie between the recorded minima and maxima, the bounds are attained, and the consistent type is the common type or 0 if types differ.", "quantifier": "all non-empty curves", "why_tests_cant": "Ranges over all curves.", "anchors": ["include/ftk/features/feature_curve.hh: update_statistics"]}
{"id": "C28", "title": "feature_curve_set ids stay unique and labelled", "statement": "After any sequence of add calls without an explicit label, ids are pairwise distinct, each curve and all its points carry its key as id.", "quantifier": "all add histories", "why_tests_cant": "Ranges over all histories.", "anchors": ["include/ftk/features/feature_curve_set.hh: add, get_new_id, relabel"]}
{"id": "C29", "title": "robust orientation sign is never zero and antisymmetric", "statement": "The robust orientation sign (dimensions 1, 2, 3) is always 1 or -1, never 0, and permuting the vertices together with their (distinct) indices multiplies it by the parity of the permutation.", "quantifier": "all integer coordinates, all distinct index tuples, all permutations", "why_tests_cant": "Degenerate inputs are measure-zero and never hit by random tests.", "anchors": ["include/ftk/numeric/sign_det.hh: robust_sign_det2, robust_sign_det3, robust_sign_det4, nswaps_bubble_sort, positive1, positive2, positive3"]}
{"id": "C30", "title": "simulation of simplicity is the limit of a real perturbation", "statement": "There is one perturbation of all vertices (depending only on vertex index and coordinate number) such that for all sufficiently small positive parameters the robust sign is the sign of the determinant of the perturbed points, and robust_smaller compares the perturbed coordinates; in particular the robust sign is the true sign when the determinant is non-zero.", "quantifier": "all integer coordinates, all distinct index tuples, dimensions 1, 2, 3", "why_tests_cant": "A limit statement over all inputs.", "anchors": ["include/ftk/numeric/sign_det.hh: positive1, positive2, positive3, robust_sign_det2, robust_sign_det3, robust_sign_det4, robust_smaller"]}
{"id": "C31", "title": "point-in-simplex is containment in the perturbed simplex, whatever the vertex order", "statement": "robust_point_in_simplex1/2/3 answers yes iff the perturbed point is strictly inside the perturbed simplex for all sufficiently small perturbations; hence the answer is the same for every ordering of the simplex's vertices (with indices permuted alike).", "quantifier": "all integer coordinates, all distinct indices, all permutations", "why_tests_cant": "Ranges over all degenerate configurations.", "anchors": ["include/ftk/numeric/sign_det.hh: robust_point_in_simplex1, robust_point_in_simplex2, robust_point_in_simplex3", "include/ftk/numeric/critical_point_test.hh"]}
{"id": "C32", "title": "every space-time cell is punctured in no facet or in exactly two", "statement": "For a triangle with scalar values, a tetrahedron with 2-vectors or a 4-simplex with 3-vectors at its vertices, the robust test reports a critical point in none or in exactly two of its facets, so a trajectory enters and leaves each cell once.", "quantifier": "all integer vectors incl. all degenerate configurations, all distinct vertex indices", "why_tests_cant": "Ranges over all degenerate configurations.", "anchors": ["include/ftk/numeric/sign_det.hh: robust_point_in_simplex1, robust_point_in_simplex2, robust_point_in_simplex3", "include/ftk/numeric/critical_point_test.hh"]}
{"id": "C33", "title": "determinant, adjugate and inverse identities", "statement": "det2/3/4 are the determinant; adjugate times matrix is the determinant times identity; the solvers built on them return a solution whenever the determinant is non-zero.", "quantifier": "all matrices over a commutative ring (real arithmetic, no rounding)", "why_tests_cant": "Polynomial identities over all entries.", "anchors": ["include/ftk/numeric/det.hh", "include/ftk/numeric/adjugate.hh", "include/ftk/numeric/matrix_inverse.hh", "include/ftk/numeric/linear_solver.hh"]}
{"id": "C34", "title": "rational_number arithmetic is field arithmetic", "statement": "+, -, *, /, comparison and compound assignments of rational_number return the value of the corresponding rational operation for non-zero denominators.", "quantifier": "all numerators and non-zero denominators", "why_tests_cant": "Ranges over all pairs.", "anchors": ["include/ftk/numeric/rational_number.hh", "include/ftk/numeric/gcd.hh"]}
{"id": "C35", "title": "interval and disjoint-interval operations match set semantics", "statement": "contains, overlaps, join and intersect of basic_interval and disjoint_intervals agree with membership of points in the denoted sets.", "quantifier": "all endpoints, open/closed flags and histories", "why_tests_cant": "Boundary flags interact in many combinations with arbitrary insert histories.", "anchors": ["include/ftk/numeric/basic_interval.hh", "include/ftk/numeric/disjoint_intervals.hh"]}
{"id": "C36", "title": "polynomial routines are polynomial arithmetic", "statement": "Evaluating the result of polynomial addition, subtraction, multiplication, scalar product and derivative at any x equals the corresponding combination of evaluated operands.", "quantifier": "all coefficient arrays of all degrees, all x", "why_tests_cant": "Ranges over all degrees.", "anchors": ["include/ftk/numeric/polynomial.hh"]}
{"id": "C37", "title": "critical point classification follows the Jacobian", "statement": "critical_point_type_2d/3d returns each type exactly when the eigenvalue signs of the Jacobian are the defining ones.", "quantifier": "all Jacobians", "why_tests_cant": "Boundary cases of the real classification.", "anchors": ["include/ftk/numeric/critical_point_type.hh"]}
{"id": "C38", "title": "ndarray indexing is a bijection and stays in bounds", "statement": "After reshape, index() maps valid multi-indices one-to-one onto [0, nelem()); element access with valid indices never leaves the buffer, and a value written at one multi-index is read back there and changes no other.", "quantifier": "all shapes, all indices", "why_tests_cant": "Ranges over all shapes.", "anchors": ["include/ftk/ndarray/ndarray_base.hh: reshapef, index, nelem", "include/ftk/ndarray.hh: reshapef, at"]}
{"id": "C39", "title": "transpose reverses indices and is an involution", "statement": "get_transpose(a)(i1..in) = a(in..i1) and transposing twice gives back the array.", "quantifier": "all shapes with nd <= 4, all contents", "why_tests_cant": "Ranges over all shapes.", "anchors": ["include/ftk/ndarray.hh: get_transpose"]}
{"id": "C40", "title": "slice, slice_time and stack are consistent", "statement": "slice(lattice) holds at each index the value of the source at start+index; slice_time(i) of a stack of arrays gives back the i-th array.", "quantifier": "all shapes and sub-ranges", "why_tests_cant": "Ranges over all shapes.", "anchors": ["include/ftk/ndarray.hh: slice, slice_time, concat, stack"]}
{"id": "C41", "title": "serialization round-trips", "statement": "Loading what was saved gives back the same ndarray / feature point / mesh element / containers, consuming exactly the bytes written, so consecutive saves load in order.", "quantifier": "all values, all sequences of saved values", "why_tests_cant": "Ranges over all values and nestings.", "anchors": ["include/ftk/external/diy/serialization.hpp", "include/ftk/ndarray.hh: Serialization", "include/ftk/features/feature_point.hh", "include/ftk/mesh/simplicial_regular_mesh.hh", "include/ftk/utils/serialization.hh"]}
{"id": "C42", "title": "min_max returns the extreme values", "statement": "min_max() returns values that are attained in the array and bound all its elements.", "quantifier": "all non-empty arrays", "why_tests_cant": "Wrong initialisation shows only for all-negative floating data.", "anchors": ["include/ftk/ndarray.hh: min_max, maxabs, resolution"]}
{"id": "C43", "title": "multilinear interpolation", "statement": "mlerp at an integer lattice position returns the stored value, stays between the min and max of the cell's corners, never reads out of bounds, and returns false outside.", "quantifier": "all shapes and positions", "why_tests_cant": "Ranges over all positions including boundary.", "anchors": ["include/ftk/ndarray.hh: mlerp"]}
{"id": "C44", "title": "streaming filter equals batch convolution with clamped ends", "statement": "The streaming filter calls back exactly once per pushed timestep, in order, with the convolution of the whole series with clamped ends.", "quantifier": "all series lengths and kernel sizes", "why_tests_cant": "Short series and end handling.", "anchors": ["include/ftk/filters/streaming_filter.hh: push, finish, get, ready"]}
{"id": "C45", "title": "gather merges all ranks' maps without loss", "statement": "After gather at the root the root's map contains a key iff some rank had it, with a value that some rank had for it (the root's own if it has one).", "quantifier": "all numbers of ranks, all maps", "why_tests_cant": "Ranges over all distributions.", "anchors": ["include/ftk/utils/gather.hh"]}
{"id": "C46", "title": "redistribute sends every item to exactly one rank by key", "statement": "After redistribute each item is at the rank chosen by its key's hash, no item is lost and all items with the same key meet on one rank.", "quantifier": "all numbers of ranks, all distributions", "why_tests_cant": "Ranges over all distributions.", "anchors": ["include/ftk/utils/redistribution.hh"]}
{"id": "C47", "title": "tracker time loop processes each timestep and interval exactly once", "statement": "When driven by push/advance for T timesteps, ordinal elements of every timestep and interval elements of every consecutive pair are processed exactly once, always with the right two snapshots.", "quantifier": "all numbers of timesteps, all push patterns", "why_tests_cant": "Ranges over all drive sequences.", "anchors": ["include/ftk/filters/critical_point_tracker.hh: advance_timestep, push_snapshot, pop_snapshot", "include/ftk/filters/critical_point_tracker_2d_regular.hh: update_timestep, simplex_vectors", "include/ftk/filters/tracker.hh"]}
{"id": "C48", "title": "online tracing neither loses nor duplicates critical points", "statement": "Through trace_critical_points_online each discrete critical point is added to exactly one trajectory or dropped only when its component yields no curve, and completed trajectories never change again.", "quantifier": "all sequences of discrete critical point sets", "why_tests_cant": "Ranges over all histories.", "anchors": ["include/ftk/filters/critical_point_tracker.hh: grow_trajectories / trace_critical_points_online"]}
{"id": "C49", "title": "kd-tree nearest neighbour is exact", "statement": "After build, find_nearest(x) returns the index of a point whose distance to x is minimal, equal to the naive search's distance.", "quantifier": "all dimensions, all non-empty point sets, all queries", "why_tests_cant": "Pruning errors appear only for particular geometry.", "anchors": ["include/ftk/basic/kd.hh: build, build_recursive, find_nearest, find_nearest_recursive, find_nearest_naive"]}
{"id": "C50", "title": "contour tree links stay symmetric and reduce only removes non-saddle nodes", "statement": "After any sequence of add_node/add_arc/reduce_node, u is an upper link of l iff l is a lower link of u, and reduce keeps exactly leaves and branch nodes.", "quantifier": "all histories", "why_tests_cant": "Ranges over all histories.", "anchors": ["include/ftk/basic/contour_tree.hh: add_arc, reduce_node, reduce"]}
{"id": "C51", "title": "extruded mesh ids decode and encode consistently", "statement": "For every integer id (any timestep) of a d-simplex of the extruded mesh, find_simplex(get_simplex(id)) = id, and every d-simplex id of a timestep lies in that timestep's id range.", "quantifier": "all base meshes, all ids", "why_tests_cant": "Ranges over all base meshes.", "anchors": ["include/ftk/mesh/simplicial_unstructured_extruded_2d_mesh_implicit.hh: get_simplex, find_simplex, n, simplex_type"]}
{"id": "C52", "title": "extruded mesh sides and side_of are dual", "statement": "For extruded meshes, triangle f is a side of tetrahedron e iff e is in side_of(f).", "quantifier": "all base triangulations and all ids", "why_tests_cant": "The library itself carries a runtime debug check for it, which covers only one mesh.", "anchors": ["include/ftk/mesh/simplicial_unstructured_extruded_2d_mesh_implicit.hh: sides, side_of"]}
{"id": "C53", "title": "fixed_point arithmetic", "statement": "Conversion, addition, subtraction, multiplication and division of fixed_point agree with integer arithmetic on scaled values (up to truncation).", "quantifier": "all values within range", "why_tests_cant": "Ranges over all values.", "anchors": ["include/ftk/numeric/fixed_point.hh"]}
{"id": "C54", "title": "linear interpolation solvers invert interpolation", "statement": "inverse_lerp_s1v1/s2v2/s3v3 return weights that sum to one and interpolate the vertex vectors to zero whenever the system is non-singular, and report success only if all weights lie in [0,1].", "quantifier": "all vertex vectors", "why_tests_cant": "Ranges over all inputs.", "anchors": ["include/ftk/numeric/inverse_linear_interpolation_solver.hh", "include/ftk/numeric/linear_interpolation.hh"]}
{"id": "C55", "title": "all2all exchange delivers every rank's data", "statement": "After all2all every rank holds exactly what each rank addressed to it.", "quantifier": "all numbers of ranks, all message sizes", "why_tests_cant": "Ranges over all message sizes.", "anchors": ["include/ftk/utils/all2all.hh"]}
{"id": "C56", "title": "mesh element order is consistent with equality", "statement": "operator< on simplicial mesh elements is a strict total order consistent with operator==, so ordered sets and maps keyed by elements merge exactly the equal ones.", "quantifier": "all pairs and triples of elements", "why_tests_cant": "Ranges over all pairs and triples of elements.", "anchors": ["include/ftk/mesh/simplicial_regular_mesh.hh: simplicial_regular_mesh_element::operator<, operator=="]}
{"id": "C57", "title": "connected component labelling", "statement": "labelConnectedComponents on zeroed labels gives label 0 exactly to rejected nodes and labels 1..count to accepted ones, equal iff the nodes are connected through accepted nodes.", "quantifier": "all finite symmetric graphs, all criteria", "why_tests_cant": "Ranges over all graphs.", "anchors": ["include/ftk/algorithms/ccl.hh: labelConnectedComponents"]}
{"id": "C58", "title": "component overlap tracking", "statement": "track_connected_components relates component i to component j iff they share an element; trackConnectedComponentsByLabels relates two non-zero labels iff some cell carries the first before and the second after.", "quantifier": "all component lists, all label arrays", "why_tests_cant": "Ranges over all pairs of labelings.", "anchors": ["include/ftk/algorithms/cca.hh: track_connected_components", "include/ftk/algorithms/ccl.hh: trackConnectedComponentsByLabels"]}
{"id": "C59", "title": "relabel: global labels are tracks", "statement": "After relabel(), get_global_label gives two recorded features the same label exactly when they are connected through recorded correspondences, labels are consecutive integers from 0, and features never recorded have no label.", "quantifier": "all sequences of add_node/add_edge calls with any number of timesteps and labels", "why_tests_cant": "the claim is about every correspondence history; tests use one short sequence", "anchors": ["include/ftk/tracking_graph/tracking_graph.hh: relabel, get_global_label, add_edge, add_node"]}
{"id": "C60", "title": "connected component tracker records the overlaps of consecutive frames", "statement": "After pushing and advancing any number of labelled frames of equal size, the tracking graph contains an edge between feature a of frame t and feature b of frame t+1 exactly when some cell carries label a in frame t and b in frame t+1 (background excluded).", "quantifier": "all frame sequences, frame sizes and labels", "why_tests_cant": "depends on the whole push/advance history", "anchors": ["include/ftk/filters/connected_component_tracker.hh: push_labeled_data_snapshot, advance_timestep, update_timestep", "include/ftk/tracking_graph/tracking_graph.hh: add_edge"]}
{"id": "C61", "title": "smooth_ordinal_types only repairs isolated type outliers", "statement": "smooth_ordinal_types(h) gives an ordinal point the type T (T not 0) when its h predecessors and h successors among the ordinal points all have type T, judged on the types before the call; every other type and every other field is unchanged.", "quantifier": "all curves, all window sizes h >= 1", "why_tests_cant": "every combination of window position, outliers and curve length", "anchors": ["include/ftk/features/feature_curve.hh: smooth_ordinal_types, to_ordinals"]}
{"id": "C62", "title": "smooth_interval_types lets types change at most once between ordinal points", "statement": "smooth_interval_types keeps the types of ordinal points, gives leading and trailing interval points the type of the nearest ordinal point, and between two successive ordinal points leaves at most one switch, from the left type to the right type. Only types change.", "quantifier": "all curves", "why_tests_cant": "depends on arbitrary type sequences of arbitrary length", "anchors": ["include/ftk/features/feature_curve.hh: smooth_interval_types"]}
{"id": "C63", "title": "curve post-processing never invents points", "statement": "Whatever comma-separated operations are configured, the points of the resulting curve set are a sub-multiset of the points before (no point is invented or duplicated); operations other than split, discard_interval_points and derive_velocity lose no point; an unknown operation is fatal; after split every curve has a single type.", "quantifier": "all operation sequences and all curve sets", "why_tests_cant": "every sequence of operations over every curve set", "anchors": ["include/ftk/filters/feature_curve_set_post_processor.hh: filter", "include/ftk/features/feature_curve_set.hh: split_all"]}
{"id": "C64", "title": "derive_velocity differentiates uniform and quadratic motion exactly", "statement": "derive_velocity changes only velocities; for a curve whose coordinate is a quadratic function of the point number the interior velocities are the exact derivative, and for uniform motion the velocity is exact at every point including both ends.", "quantifier": "all curves with at least two points, all motions", "why_tests_cant": "every curve length and coefficient", "anchors": ["include/ftk/features/feature_curve.hh: derive_velocity"]}
{"id": "C65", "title": "unwrap shifts by whole periods and removes jumps", "statement": "unwrap(period) moves every point by a whole number of periods in the chosen coordinate and changes nothing else; successive points at most 1.5 periods apart end up at most half a period apart; a curve without jumps is unchanged.", "quantifier": "all non-empty curves, all positive periods", "why_tests_cant": "jump patterns of any length", "anchors": ["include/ftk/features/feature_curve.hh: unwrap"]}
{"id": "C66", "title": "split_geo loses no point and cuts only at longitude jumps", "statement": "The pieces returned by split_geo are non-empty, their concatenation is the curve, inside a piece successive longitudes differ by at most 180 degrees, and at each cut they differ by more.", "quantifier": "all curves", "why_tests_cant": "every curve", "anchors": ["include/ftk/features/feature_curve.hh: split_geo"]}
{"id": "C67", "title": "quadratic and cubic solvers return exactly the real roots", "statement": "solve_quadratic_real, solve_cubic_real and their _multiplicity versions return every real root of the polynomial with the given coefficients (each once, or with its multiplicity) and nothing else, and write only inside the output array.", "quantifier": "all real coefficient vectors that are not all zero and have no tiny coefficients", "why_tests_cant": "The root formulas have to hold for every real coefficient vector, including the degenerate ones; tests sample.", "anchors": ["include/ftk/numeric/quadratic_solver.hh: solve_quadratic_real, solve_quadratic_real_multiplicity", "include/ftk/numeric/cubic_solver.hh: solve_cubic_real, solve_cubic_real_multiplicity", "include/ftk/numeric/linear_solver1.hh: solve_linear_real1"]}
{"id": "C68", "title": "ndarray arithmetic and conversion are element-wise", "statement": "a+b and a+=b add corresponding elements and keep the shape, scaling multiplies every element, and from_array converts every element and keeps shape, component count and time flag; no element outside the arrays is read when the shapes agree.", "quantifier": "all shapes, all element types with the arithmetic used, all contents", "why_tests_cant": "every shape and content", "anchors": ["include/ftk/ndarray.hh: operator+, operator+=, from_array"]}
{"id": "C69", "title": "2-D unstructured mesh keeps its triangles", "statement": "Building the mesh never leaves its arrays; get_triangle(i) returns the i-th input triangle with its vertices in increasing order; find_triangle, given the vertices in any order, returns the id of the triangle with these vertices and nothing for any other triple; the stored chirality is the sign of the permutation that sorted the vertices; vertex_triangles lists exactly the triangles containing the vertex.", "quantifier": "all vertex counts, all lists of distinct triangles with at most two on each edge, every iteration order of the hash containers", "why_tests_cant": "every mesh and every hash order", "anchors": ["include/ftk/mesh/simplicial_unstructured_2d_mesh.hh: build_triangles, find_simplex, get_simplex, get_triangle_chi"]}
{"id": "C70", "title": "2-D unstructured mesh edges and incidence are exact and dual", "statement": "The edges are exactly the pairs of vertices joined by a triangle, each with one id; find_edge and get_edge are inverse; sides of a triangle are its three edges, side_of an edge the one or two triangles containing it, and the two relations are dual; vertex neighbours are exactly the vertices joined by an edge; the triangle adjacency given to METIS is exactly sharing an edge.", "quantifier": "all vertex counts, all lists of distinct triangles with at most two on each edge, every iteration order of the hash containers", "why_tests_cant": "every mesh and every hash order", "anchors": ["include/ftk/mesh/simplicial_unstructured_2d_mesh.hh: build_edges, sides, side_of, find_edge, get_vertex_edge_vertex, triangle_edge_triangles"]}
{"id": "C71", "title": "mesh partition assigns every simplex and its ids consistently", "statement": "After partitioning, each triangle is on exactly one rank, each rank's local edges and vertices are exactly those of its triangles, and lid2gid and gid2lid are inverse.", "quantifier": "all meshes, all METIS outputs, all rank counts", "why_tests_cant": "every mesh, part vector and rank", "anchors": ["include/ftk/mesh/simplicial_unstructured_2d_mesh.hh: build_partition, lid2gid, gid2lid"]}
{"id": "C72", "title": "trajectories follow the punctured facets through the cells", "statement": "The offline 2-D and 3-D regular trackers return curves such that every punctured facet of the space-time mesh is on exactly one curve, exactly once; successive points of a curve lie on two facets of one common cell inside the box; a curve either closes up or both its ends are facets on the boundary of the box; each cell inside has zero or two punctured facets, so no curve branches.", "quantifier": "all finite input series, all boxes, all time ranges, one process", "why_tests_cant": "every vector field, degenerate ones included", "anchors": ["include/ftk/filters/critical_point_tracker_2d_regular.hh: check_simplex, update_timestep", "include/ftk/filters/critical_point_tracker_3d_regular.hh: check_simplex, update_timestep", "include/ftk/filters/critical_point_tracker.hh: trace_critical_points_offline", "include/ftk/numeric/sign_det.hh: robust_critical_point_in_simplex2, robust_critical_point_in_simplex3", "include/ftk/mesh/simplicial_regular_mesh.hh: sides, side_of"]}
{"id": "C73", "title": "point location in a triangulation is exact", "statement": "Building the point locator terminates and files every triangle in exactly one leaf; locate(x) returns only a triangle that contains x, with its barycentric coordinates; and it returns some triangle for every x contained in a triangle.", "quantifier": "all triangle meshes without degenerate triangles and without repeated centres, all query points", "why_tests_cant": "every mesh and every query point", "anchors": ["include/ftk/mesh/point_locator_2d_quad.hh: initialize, subdivide_quad_node, locate, locate_recursive, locate_nonrecursive", "include/ftk/mesh/aabb.hh: AABB"]}
{"id": "C74", "title": "hypercube mesh faces are exact and dual", "statement": "For an axis-aligned cubical mesh of any dimension, sides(e) are exactly the faces of codimension one of e, side_of(e) exactly the elements having e among their sides, the number of types of d-elements is binomial(n,d), and the iterator visits elements in order without repetition.", "quantifier": "all dimensions, all elements, all bounds", "why_tests_cant": "every dimension and element", "anchors": ["include/ftk/mesh/regular_mesh.hh: regular_mesh_element, regular_mesh"]}
{"id": "C75", "title": "rk4 is the classical fourth-order step and reports failure", "statement": "rk4 advances exactly as the Taylor polynomial of degree four for linear fields, exactly for constant fields and as Simpson's rule for fields depending only on one coordinate; it returns true only when all four velocity evaluations succeeded; when the first fails, the point is unchanged.", "quantifier": "all dimensions, all velocity callbacks, all step sizes", "why_tests_cant": "every field, step and failure point", "anchors": ["include/ftk/numeric/rk4.hh: rk4"]}
{"id": "C76", "title": "spherical steps rotate exactly and stay on the sphere", "statement": "axis_rotate_vector is the rotation by the given angle about the given axis; angular_stepping moves along the great circle by arc length h|v| and keeps the radius; the vertical variants change the radius exactly by the vertical velocity; a failing velocity leaves the particle unmoved.", "quantifier": "all real positions, velocities, steps and callbacks", "why_tests_cant": "every position and velocity", "anchors": ["include/ftk/numeric/quaternion.hh: quatmul, axis_rotate_vector", "include/ftk/numeric/rk4.hh: angular_stepping, angular_and_vertical_stepping, spherical_stepping, spherical_rk4_with_vertical_velocity"]}
{"id": "C77", "title": "finite-difference derivatives of gridded fields are exact for low-degree fields", "statement": "The gradient, Jacobian and vorticity operators never access memory outside their arrays, give the same result whatever the order of their parallel iterations, give at every interior grid point the derivative of any field of degree at most two, and leave 0 on the boundary layer; cross_product3D, Jv_dot_v and JvT_dot_v are the pointwise products.", "quantifier": "all grid sizes, all fields, all iteration orders", "why_tests_cant": "every grid, field and schedule", "anchors": ["include/ftk/ndarray/grad.hh: gradient2D, gradient2Dt, gradient3D, gradient3Dt, jacobian2D, jacobian2Dt, jacobian3D, jacobian3Dt, vorticity3D, cross_product3D, Jv_dot_v, JvT_dot_v"]}
{"id": "C79", "title": "convolution smooths with the given kernel", "statement": "conv2D and conv3D access nothing outside the arrays, give the same result whatever the order of the iterations, and each output is the zero-padded sum of products with the kernel; the Gaussian kernels are positive, symmetric and of sum 1, so that smoothing keeps a constant field constant away from the boundary.", "quantifier": "all array and kernel sizes, paddings, contents and iteration orders", "why_tests_cant": "every array, kernel and schedule", "anchors": ["include/ftk/ndarray/conv.hh: conv2D, conv3D, gaussian_kernel, gaussian_kernel2D, conv2D_gaussian, conv3D_gaussian"]}
{"id": "C78", "title": "gradients on a simplex are those of the affine interpolant", "statement": "gradient_2dsimplex2, gradient_3dsimplex2, jacobian_2dsimplex2 and jacobian_3dsimplex return the derivative of the affine function having the given values at the vertices of a non-degenerate simplex (jacobians: entry [d][c] is the derivative of component c along coordinate d).", "quantifier": "all non-degenerate simplices and all vertex values", "why_tests_cant": "every simplex and every field", "anchors": ["include/ftk/numeric/gradient.hh: gradient_2dsimplex2, gradient_3dsimplex2, jacobian_2dsimplex2, jacobian_3dsimplex"]}
{"id": "C80", "title": "matrix norms and condition numbers bound what they should", "statement": "The 1-norms and the infinity norm are the operator norms; cond_real2x2/3x3 of an invertible matrix is at least 1 and bounds the relative error of the solution of a linear system by the relative error of the right-hand side; the Frobenius norm is the root of the sum of squares; the symmetric and antisymmetric decompositions are the unique ones.", "quantifier": "all matrices and vectors", "why_tests_cant": "every matrix, vector and perturbation", "anchors": ["include/ftk/numeric/matrix_norm.hh: matrix_1norm_real2x2, matrix_1norm_real3x3, matrix_inf_norm_real2x2, matrix_frobenius_norm_real2x2", "include/ftk/numeric/cond.hh: cond_real2x2, cond_real3x3", "include/ftk/numeric/matrix_decomposition.hh"]}
{"id": "C81", "title": "complex polynomial solvers return all complex roots", "statement": "solve_quadratic, solve_cubic and quartic_solve return exactly the complex roots with multiplicity; solve_cubic's returned discriminant tells whether all roots are real.", "quantifier": "all real coefficients", "why_tests_cant": "every coefficient vector including degenerate ones", "anchors": ["include/ftk/numeric/quadratic_solver.hh: solve_quadratic", "include/ftk/numeric/cubic_solver.hh: solve_cubic", "include/ftk/numeric/quartic_solver.hh: quartic_solve"]}
{"id": "C82", "title": "eigenvectors are unit eigenvectors", "statement": "vector_normalization2 returns the unit vector in the same direction; for every eigenvalue of the matrix solve_eigenvectors2x2 and solve_eigenvectors3x3 return a unit vector v with A v = lambda v.", "quantifier": "all real matrices and all their eigenvalues", "why_tests_cant": "every matrix and eigenvalue", "anchors": ["include/ftk/numeric/eigen_solver2.hh: solve_eigenvectors2x2", "include/ftk/numeric/eigen_solver3.hh: solve_eigenvectors3x3", "include/ftk/numeric/vector_normalization.hh: vector_normalization2"]}
{"id": "C83", "title": "the contour trackers find exactly the edges crossed by the contour", "statement": "After pushing a series of scalar snapshots and advancing, no read was out of range; the intersections of contour_tracker_2d_regular and contour_tracker_3d_regular are exactly the edges of the spacetime mesh within the domain and the times of the series having one end above the threshold and the other not (above: by at least 2^-21), each reported once; the related cells are exactly the mesh cells containing such an edge.  The result does not depend on the order in which the parallel tasks ran.", "quantifier": "all domains, thresholds, series of snapshots (any number, any values) and all orders of execution of the parallel tasks", "why_tests_cant": "every mesh size, number of snapshots, field and schedule", "anchors": ["include/ftk/filters/contour_tracker_2d_regular.hh: update_timestep, check_simplex, simplex_values", "include/ftk/filters/contour_tracker_3d_regular.hh: update_timestep, check_simplex, simplex_values", "include/ftk/filters/contour_tracker_regular.hh: get_intersections, reset", "include/ftk/filters/contour_tracker.hh: advance_timestep, push_field_data_snapshot, pop_field_data_snapshot"]}
{"id": "C84", "title": "contour points lie on the contour and on their edge", "statement": "Every intersection reported lies on its mesh edge, at the point where the linear interpolation of the two end values equals the threshold; it carries the threshold as its scalar value, the edge's number as its tag, the time of the earlier end and whether the edge lies in one time slice.", "quantifier": "all domains, thresholds, series, schedules and reported points", "why_tests_cant": "every field value, including values just above the threshold", "anchors": ["include/ftk/filters/contour_tracker_2d_regular.hh: check_simplex", "include/ftk/filters/contour_tracker_3d_regular.hh: check_simplex", "include/ftk/numeric/inverse_linear_interpolation_solver.hh: inverse_lerp_s1v1"]}
{"id": "C85", "title": "the contour surface of a 2-D series is a watertight triangulation", "statement": "The surface built from the intersections has one point per intersection and triangles with three different existing points; an edge of the surface lies in exactly two triangles, except on the boundary of the domain or at the first and last time, where it lies in one.  The order in which the cells are processed only permutes the triangles.", "quantifier": "all domains, thresholds, series of snapshots and orders of processing", "why_tests_cant": "every configuration of signs over the whole mesh", "anchors": ["include/ftk/filters/contour_tracker_2d_regular.hh: build_isosurfaces", "include/ftk/features/feature_surface.hh: tris, pts"]}
{"id": "C86", "title": "the isovolume of a 3-D series is a watertight tetrahedralisation", "statement": "Building the isovolume of a 3-D time series never overruns an array; each mesh cell crossed by the contour contributes a decomposition of its part of the contour into tetrahedra with four different existing points; the pieces of neighbouring cells fit: each triangle lies in exactly two tetrahedra except on the boundary of the domain or at the first and last time.", "quantifier": "all domains, thresholds, series of snapshots and orders of processing", "why_tests_cant": "every configuration of signs over the whole mesh", "anchors": ["include/ftk/filters/contour_tracker_3d_regular.hh: build_isovolume", "include/ftk/features/feature_volume.hh: conns, pts"]}
{"id": "C87", "title": "relabel numbers the connected components", "statement": "relabel() of a feature line, surface or volume changes nothing but the identifiers of the points; afterwards two points have the same identifier exactly if they are connected through cells (edges, triangles, quadrilaterals, pentagons, tetrahedra), and the identifier is the number of a point of the component.", "quantifier": "all point sets and all cells referring to existing points", "why_tests_cant": "every complex: any number and arrangement of cells", "anchors": ["include/ftk/features/feature_line.hh: relabel", "include/ftk/features/feature_surface.hh: relabel", "include/ftk/features/feature_volume.hh: relabel"]}
{"id": "C88", "title": "slices of a volume are the triangles of its tetrahedra", "statement": "feature_volume_t::slice(f) has exactly the points satisfying f, in order, and exactly one triangle for each triple of such points that is the part of a tetrahedron satisfying f; slice_time(t) does the same for the points lying in time slice t.", "quantifier": "all volumes, all predicates and all times", "why_tests_cant": "every complex and predicate", "anchors": ["include/ftk/features/feature_volume.hh: slice, slice_time"]}
{"id": "C89", "title": "lines and slices of surfaces are cut into curves without losing or repeating points", "statement": "feature_line_t::to_curve_set and feature_surface_t::slice_time always finish and return curves whose consecutive points share an edge (triangle); every point having at most two such neighbours is on exactly one curve, once, the other points on none; two such points are on the same curve exactly if they are connected through such points; each curve is labelled with the identifier of its first point and flagged as loop exactly if it has at least two points and its ends are neighbours.", "quantifier": "all lines, all surfaces and all times", "why_tests_cant": "every graph formed by edges or triangles", "anchors": ["include/ftk/features/feature_line.hh: to_curve_set", "include/ftk/features/feature_surface.hh: slice_time", "include/ftk/features/feature_curve_set.hh: add"]}
{"id": "C90", "title": "discard removes the selected points and their triangles", "statement": "feature_surface_t::discard(f) always finishes, keeps in order every point not satisfying f and removes the points satisfying f, and keeps exactly the triangles all of whose points are left, in order and renumbered.", "quantifier": "all surfaces with cells referring to existing points, all predicates and distances", "why_tests_cant": "every surface and every set of points discarded, including chains of neighbouring discarded points", "anchors": ["include/ftk/features/feature_surface.hh: discard"]}
{"id": "C91", "title": "reorient only flips triangles, and makes neighbours agree", "statement": "feature_surface_t::reorient() always finishes and changes nothing but the orientation of triangles; afterwards neighbouring triangles pass through their common edge in opposite directions.", "quantifier": "all surfaces", "why_tests_cant": "every surface", "anchors": ["include/ftk/features/feature_surface.hh: reorient"]}
{"id": "C92", "title": "the unstructured 2-D tracker tests every space-time triangle exactly once", "statement": "Pushing the snapshots one after another and calling the time loop, every triangle of the extruded mesh (at a timestep, or between two consecutive timesteps) is tested exactly once, with the values of the snapshots belonging to its vertices; the recorded points do not depend on the order in which the threads execute the tests, are keyed by their triangle, and every triangle that passes the robust test yields a point (unless a filter drops it).  With streaming enabled the points of the last timestep are there as well.", "quantifier": "all valid triangle meshes, all series of snapshots and all thread schedules", "why_tests_cant": "any mesh, any number of timesteps, any schedule", "anchors": ["include/ftk/filters/critical_point_tracker_2d_unstructured.hh: update_timestep, check_simplex, simplex_values, finalize", "include/ftk/filters/critical_point_tracker.hh: push_field_data_snapshot, advance_timestep, update_vector_field_scaling_factor", "include/ftk/filters/unstructured_2d_tracker.hh: initialize", "include/ftk/mesh/simplicial_unstructured_extruded_2d_mesh.hh: element_for_ordinal, element_for_interval"]}
{"id": "C93", "title": "points of the unstructured 2-D tracker lie in their triangle", "statement": "A recorded point has barycentric weights in [0,1] (up to the machine epsilon the solver tolerates) adding up to 1, its position and time are the combination of the vertices with these weights; if quantisation represents the vectors exactly, the weights are exactly in [0,1], the interpolated vector is zero there, and the time is between that of the two timesteps.", "quantifier": "all meshes, coordinates and series", "why_tests_cant": "all values of the field", "anchors": ["include/ftk/filters/critical_point_tracker_2d_unstructured.hh: check_simplex", "include/ftk/numeric/inverse_linear_interpolation_solver.hh: inverse_lerp_s2v2", "include/ftk/numeric/linear_interpolation.hh: lerp_s2v4"]}
{"id": "C94", "title": "trajectories on an unstructured mesh follow the punctured triangles through the tetrahedra", "statement": "Every punctured triangle is on exactly one trajectory, once; consecutive triangles of a trajectory are faces of a common tetrahedron of the extruded mesh; a trajectory is closed, or both its ends are on the boundary of the extruded mesh; a tetrahedron is passed by no trajectory or by one, that enters and leaves it; the loop flag tells which trajectories close.", "quantifier": "all valid meshes, all series of finite values, all thread schedules", "why_tests_cant": "every arrangement of critical points, of any number of timesteps and elements", "anchors": ["include/ftk/filters/critical_point_tracker_2d_unstructured.hh: finalize, update_timestep", "include/ftk/filters/critical_point_tracker.hh: trace_critical_points_offline", "include/ftk/mesh/simplicial_unstructured_extruded_2d_mesh.hh: side_of, sides"]}
{"id": "C95", "title": "a simplex reported to contain a zero contains exactly one", "statement": "If robust_critical_point_in_simplex1/2/3 answers yes for integer vectors at vertices with distinct indices, none negative, then the vectors are affinely independent and have exactly one convex combination that is zero: the linear system of the solver that is called next is regular, and its solution is in the closed simplex.", "quantifier": "all integer vectors and all vertex indices", "why_tests_cant": "every input, including all degenerate ones", "anchors": ["include/ftk/numeric/critical_point_test.hh: robust_critical_point_in_simplex1, robust_critical_point_in_simplex2, robust_critical_point_in_simplex3", "include/ftk/numeric/sign_det.hh: robust_point_in_simplex2, robust_point_in_simplex3"]}
{"id": "C96", "title": "the critical line tracker records exactly the pierced space-time triangles", "statement": "After the time loop over a series of snapshots, whatever the order in which the threads execute the tests, the record of the critical line tracker contains exactly the triangles of the 4-D space-time mesh, inside the domain and at the times of the series, whose quantised 2-vectors surround zero under the tie-breaking rule, each once; the point of a triangle lies in it, is marked as belonging to a single timestep exactly if the triangle does, and has a tag no other triangle has; if quantisation represents the vectors exactly, the point is the only one of the triangle's plane where the interpolated vector is zero.", "quantifier": "all domains, series of snapshots, value types (also those of the derived trackers) and thread schedules", "why_tests_cant": "any grid, any number of timesteps, any schedule, every degenerate value", "anchors": ["include/ftk/filters/critical_line_tracker.hh: push_field_data_snapshot, advance_timestep", "include/ftk/filters/critical_line_tracker_3d_regular.hh: update_timestep, check_simplex, simplex_values", "include/ftk/filters/regular_tracker.hh: simplex_indices"]}
{"id": "C97", "title": "the pierced triangles of a 4-simplex are the corners of one polygon, and the surface joins them", "statement": "In every 4-simplex inside the domain and the series, the pierced triangles are the corners of one polygon with three, four or five corners, or there are none; each tetrahedron has none or two, which are neighbours in the polygon. The surface step never overflows its array of six, uses each polygon once, its triangles have three different corners, triangulate each polygon, join two points directly exactly if they belong to a common 4-simplex inside, and the identifiers it assigns are equal exactly for points linked through such 4-simplices.", "quantifier": "all domains, series, and orders of the parallel tasks", "why_tests_cant": "all configurations of values in all 4-simplices", "anchors": ["include/ftk/filters/critical_line_tracker_3d_regular.hh: build_vortex_surfaces, get_relatetd_cels", "include/ftk/features/feature_surface.hh: relabel"]}
{"id": "C98", "title": "lines of a single snapshot follow the pierced triangles through the tetrahedra", "statement": "For a series of one snapshot, every pierced triangle is on exactly one curve, once; consecutive triangles of a curve are faces of a common tetrahedron inside; a curve closes, or both its ends are at the boundary of the domain; every tetrahedron inside is passed by no curve or by one, that enters it by one face and leaves it by another.", "quantifier": "all domains, snapshots and thread schedules", "why_tests_cant": "any grid and any arrangement of zero lines", "anchors": ["include/ftk/filters/critical_line_tracker_3d_regular.hh: build_vortex_lines, finalize", "include/ftk/algorithms/cca.hh: extract_connected_components", "include/ftk/geometry/cc2curves.hh: connected_component_to_linear_components"]}
{"id": "C99", "title": "the vortex core and ridge trackers record exactly the crossings of their derived field", "statement": "For the Sujudi-Haimes tracker with velocity snapshots and the ridge/valley tracker with scalar snapshots, on a domain two vertices away from the faces of the array: pushing succeeds, no read leaves an array, and after the time loop, whatever the schedule, a point is recorded for exactly the space-time triangles in the domain where the first two components of velocity x acceleration (gradient x Hessian gradient), computed with central differences, cross zero; the point lies in its triangle, and its scalars are the third component, the scaled discriminant of the velocity gradient and (ridges) the interpolated scalar at that point.", "quantifier": "all array sizes, domains, series of snapshots and thread schedules", "why_tests_cant": "any data, any size, any schedule", "anchors": ["include/ftk/filters/sujudi_haimes_tracker_3d_regular.hh: push_field_data_snapshot, simplex_values, check_simplex", "include/ftk/filters/ridge_valley_tracker_3d_regular.hh: push_field_data_snapshot", "include/ftk/ndarray/grad.hh: jacobian3D, Jv_dot_v, cross_product3D, gradient3D"]}
{"id": "C100", "title": "discJ is negative exactly where the flow swirls", "statement": "The scalar discJ reported with a point is negative exactly if the velocity gradient interpolated at the point has an eigenvalue that is not real.", "quantifier": "all velocity series, triangles and points in them", "why_tests_cant": "a statement about the eigenvalues of every real matrix", "anchors": ["include/ftk/filters/sujudi_haimes_tracker_3d_regular.hh: check_simplex", "include/ftk/numeric/characteristic_polynomial.hh: characteristic_polynomial_3x3", "include/ftk/numeric/cubic_solver.hh: cubic_discriminant"]}
{"id": "C101", "title": "the Levy-Degani-Seginer tracker records crossings of velocity x vorticity and reports the vorticity there", "statement": "As C99 for velocity x vorticity on a domain one vertex away from the faces; the scalars of a point are the third component and the magnitude of the vorticity at the point.", "quantifier": "all array sizes, domains, series and schedules", "why_tests_cant": "any data, any size, any schedule", "anchors": ["include/ftk/filters/levy_degani_seginer_tracker_3d_regular.hh: push_field_data_snapshot, simplex_values, check_simplex", "include/ftk/ndarray/grad.hh: vorticity3D", "include/ftk/numeric/vector_norm.hh: vector_2norm_2"]}
{"id": "C102", "title": "points of the core line trackers are where the two vectors are parallel", "statement": "A recorded point is where the velocity and the acceleration (the vorticity) are parallel, and every place where they are parallel is recorded.", "quantifier": "all velocity series", "why_tests_cant": "all data, including the degenerate cases", "anchors": ["include/ftk/filters/sujudi_haimes_tracker_3d_regular.hh: check_simplex", "include/ftk/filters/critical_line_tracker_3d_regular.hh: check_simplex"]}
{"id": "C103", "title": "the core line trackers give meaningful points on every domain inside the array", "statement": "On any domain inside the array (the command line program uses one that reaches the far faces) the pushes and the loop succeed and the points found are crossings of the field computed from the data.", "quantifier": "all domains inside the array, all series and schedules", "why_tests_cant": "any domain, data and schedule", "anchors": ["include/ftk/filters/sujudi_haimes_tracker_3d_regular.hh: push_field_data_snapshot", "src/cli/ftk.cpp: initialize_critical_line_tracker"]}
{"id": "C104", "title": "the vortex tracker finds a triangle crossed exactly if the gauge-invariant phase winds around it", "statement": "For the phases and line integrals of any triangle there is exactly one integer n, the winding number, such that the phase differences less the line integrals, each reduced to [-pi, pi), add up to n turns less the circulation of the potential; the triangle is found crossed exactly if this sum is at least half a turn in absolute value. If the circulation is less than half a turn, that is exactly if n is not 0, and then n is 1 or -1.", "quantifier": "all phases and line integrals", "why_tests_cant": "all real numbers", "anchors": ["include/ftk/filters/tdgl_vortex_tracker_3d_regular.hh: check_simplex", "include/ftk/numeric/fmod.hh: fmod1, mod2pi, mod2pi1"]}
{"id": "C105", "title": "the line integrals add up to the magnetic flux", "statement": "The line integrals of the magnetic potential around a triangle of one snapshot add up to the flux of the snapshot's magnetic field through it, for every field, cell size, origin and kex.", "quantifier": "all metadata and triangles", "why_tests_cant": "all fields and triangles", "anchors": ["include/ftk/filters/tdgl_vortex_tracker_3d_regular.hh: magnetic_potential, line_integral"]}
{"id": "C106", "title": "the vortices do not depend on the branch of the phase or the gauge", "statement": "Adding any number of full turns to the phase of each vertex, or a gauge transformation (any function added to the phases and its differences to the line integrals), changes neither which triangles are found crossed nor (values in general position) where in the triangle the point is.", "quantifier": "all phases, line integrals, amplitudes and gauge functions", "why_tests_cant": "all gauges", "anchors": ["include/ftk/filters/tdgl_vortex_tracker_3d_regular.hh: check_simplex", "include/ftk/numeric/linear_interpolation.hh: lerp_s2v4"]}
{"id": "C107", "title": "the vortex tracker records exactly the crossed triangles of the series", "statement": "After the driver's loop over a series of snapshots, for every schedule of the scans, a point is recorded for exactly the space-time triangles in the domain and the times of the series around which the gauge-invariant phase turns by half a turn or more; no read leaves an array.", "quantifier": "all array sizes, domains, series and schedules", "why_tests_cant": "any data, any size, any schedule", "anchors": ["include/ftk/filters/tdgl_vortex_tracker_3d_regular.hh: update_timestep, check_simplex, simplex_values", "include/ftk/filters/tdgl_vortex_tracker.hh: push_field_data_snapshot, advance_timestep"]}
{"id": "C108", "title": "vortices do not end inside the domain", "statement": "In every tetrahedron the signed winding numbers of the four faces cancel; the number of crossed faces is even; without circulation it is 0 or 2.", "quantifier": "all tetrahedra, phases, amplitudes and metadata", "why_tests_cant": "all real data, including exact ties", "anchors": ["include/ftk/filters/tdgl_vortex_tracker_3d_regular.hh: check_simplex", "include/ftk/numeric/fmod.hh: mod2pi1"]}
{"id": "C109", "title": "the point of a crossed triangle is the zero of the order parameter in it", "statement": "The point recorded for a crossed triangle lies in the triangle, where the order parameter, transported to the first vertex along the edges and interpolated linearly, is zero; a triangle with such a zero in its interior is found crossed.", "quantifier": "all triangles with positive amplitudes", "why_tests_cant": "all real data", "anchors": ["include/ftk/filters/tdgl_vortex_tracker_3d_regular.hh: check_simplex", "include/ftk/numeric/inverse_linear_interpolation_solver.hh: inverse_lerp_s2v2"]}
{"id": "C110", "title": "vortex surfaces join the points of each space-time cell", "statement": "After the loop over a series the surface is built, whatever the schedules; its points are the recorded ones, its triangles the patches of the 4-simplices with crossed triangles, and two points get one identifier exactly if they are linked through 4-simplices. The crossed triangles of a 4-simplex are the corners of one polygon.", "quantifier": "all series and schedules", "why_tests_cant": "any data, size, schedule", "anchors": ["include/ftk/filters/tdgl_vortex_tracker_3d_regular.hh: build_vortex_surfaces, finalize", "include/ftk/features/feature_surface.hh: relabel"]}
{"id": "C111", "title": "the particle tracer integrates every interval once, each particle on its own", "statement": "For a series of at least two snapshots the command line tool carries every particle through the intervals 0, 1, .., interval i exactly once, between snapshots i and i+1 and starting from time i; the trajectory of a particle depends only on its own seed and the snapshots, not on the other particles, the number of threads or the schedule. With a single snapshot and ntimesteps = 1 every particle is integrated once in the steady field.", "quantifier": "all series, seeds, parameters and execution orders of the parallel loops", "why_tests_cant": "any number of snapshots and particles, any schedule", "anchors": ["include/ftk/filters/particle_tracer.hh: update_timestep, advance_timestep, prepare_timestep", "src/cli/ftk.cpp: initialize_particle_tracer"]}
{"id": "C112", "title": "a trajectory has a point at the start of each interval, at every 16th step and at the end", "statement": "With delta_t = 1 a run over valid snapshots is always defined, never removes a point, and either records for every interval i exactly the times i + 16 j / n for the steps 16 j below n, and i+1, in nondecreasing order, or the particle ends outside the grid.", "quantifier": "all velocity fields, seeds, numbers of steps and series", "why_tests_cant": "any field and any length", "anchors": ["include/ftk/filters/particle_tracer.hh: update_timestep, eval_vt", "include/ftk/numeric/rk4.hh: rk4"]}
{"id": "C113", "title": "a trajectory that ends inside the grid is complete, and a particle that left stays where it left", "statement": "A particle whose last recorded position is inside the grid has reached the last time step with all its checkpoints. A particle that leaves the grid is recorded at the boundary when it leaves, and never moves again.", "quantifier": "all velocity fields, seeds and series", "why_tests_cant": "any field", "anchors": ["include/ftk/filters/particle_tracer.hh: update_timestep", "include/ftk/numeric/rk4.hh: rk4", "include/ftk/ndarray.hh: mlerp"]}
{"id": "C114", "title": "particles in uniform time-dependent velocities are traced exactly", "statement": "If every snapshot has the same velocity at all grid points and the particle has room, its recorded positions are those of the exact solution for the velocity interpolated linearly in time, at every checkpoint and at the end of the series, whatever the number of steps.", "quantifier": "all uniform velocity series, seeds, grids and step counts", "why_tests_cant": "all reals, any number of steps and snapshots", "anchors": ["include/ftk/filters/particle_tracer.hh: update_timestep, eval_vt", "include/ftk/filters/particle_tracer_regular.hh: eval_v", "include/ftk/numeric/rk4.hh: rk4"]}
{"id": "C115", "title": "the time step and the seed times can be chosen freely", "statement": "For every positive set_delta_t and every seed time in the series the particle is integrated from its seed time to the end of the series.", "quantifier": "all time steps and seed times", "why_tests_cant": "all real parameters", "anchors": ["include/ftk/filters/particle_tracer.hh: set_delta_t, update_timestep, eval_vt, initialize_particles"]}
{"id": "C116", "title": "particles in steady affine flows follow the fourth-order Taylor step", "statement": "In a steady velocity field A x + b sampled on the grid, a particle that ends inside the grid ends at the last time step at the position given by n steps per interval of the degree 4 Taylor polynomial of the exact solution.", "quantifier": "all matrices, vectors, grids, seeds, step counts and series", "why_tests_cant": "all reals, any number of steps", "anchors": ["include/ftk/filters/particle_tracer.hh: update_timestep", "include/ftk/numeric/rk4.hh: rk4", "include/ftk/ndarray.hh: mlerp"]}
{"id": "C117", "title": "seeding at grid points covers the domain exactly once", "statement": "initialize_particles_at_grid_points creates one particle for every grid point of the domain, once each, at time 0, whatever the schedule; with the domain of the command line tool all of them are inside the grid.", "quantifier": "all domains and schedules", "why_tests_cant": "any size, any schedule", "anchors": ["include/ftk/filters/particle_tracer_regular.hh: initialize_particles_at_grid_points", "include/ftk/mesh/simplicial_regular_mesh.hh: element_for_ordinal"]}
{"id": "C118", "title": "a recorded point carries the velocity at that point", "statement": "Every recorded point of a trajectory carries the velocity of the field at its position and time.", "quantifier": "all fields, seeds and series", "why_tests_cant": "any field", "anchors": ["include/ftk/filters/particle_tracer.hh: update_timestep", "include/ftk/numeric/rk4.hh: rk4"]}
{"id": "C119", "title": "solve_linear_inequality returns the solution interval", "statement": "The interval returned for a x + b >= 0 contains exactly the reals satisfying it.", "quantifier": "all real a and b", "why_tests_cant": "all reals", "anchors": ["include/ftk/numeric/linear_inequality_solver.hh: solve_linear_inequality", "include/ftk/numeric/basic_interval.hh: contains"]}
{"id": "C120", "title": "solve_cubic_inequality_real returns the solution set", "statement": "The set of intervals returned for a polynomial of degree at most 3 contains exactly the reals x with P(x) >= 0.", "quantifier": "all coefficient vectors without tiny coefficients", "why_tests_cant": "all reals; needs the sign of a cubic between its roots", "anchors": ["include/ftk/numeric/cubic_inequality_solver.hh: solve_cubic_inequality_real", "include/ftk/numeric/cubic_solver.hh: solve_cubic_real", "include/ftk/numeric/disjoint_intervals.hh: join, contains", "include/ftk/numeric/basic_interval.hh: sample"]}
{"id": "C121", "title": "evaluate_rational and evaluate_rational_infinity return the limit of P/Q", "statement": "The value returned at x (at infinity) is v exactly when P(y)/Q(y) tends to v as y tends to x (to infinity), resolving removable singularities; it is NaN at a pole, and for a zero denominator.", "quantifier": "all degrees, coefficient arrays and points at which the epsilon tests are exact", "why_tests_cant": "all degrees and orders of vanishing", "anchors": ["include/ftk/numeric/rational_function.hh: evaluate_rational, evaluate_rational_infinity", "include/ftk/numeric/polynomial.hh: polynomial_derivative, polynomial_evaluate"]}
{"id": "C122", "title": "A tetrahedral mesh numbers its edges, triangles and tetrahedra and their incidences", "statement": "After a mesh is set up from vertices and tetrahedra, get_simplex on the ids 0..n(d)-1 gives each edge, triangle and tetrahedron exactly once with increasing corners, in lexicographic order; find_simplex inverts it and finds nothing else; side_of gives exactly the cells one dimension up that contain the cell; sides those one dimension down; the vertex neighbours are those joined by an edge.", "quantifier": "all lists of tetrahedra with distinct corners in range, no two alike, any number sharing a face", "why_tests_cant": "all meshes", "anchors": ["include/ftk/mesh/simplicial_unstructured_3d_mesh.hh: build_edges, build_triangles, build_tetrahedra, get_simplex, find_simplex, side_of, sides, get_vertex_edge_vertex"]}
{"id": "C123", "title": "Ids of the extruded tetrahedral mesh and its space-time simplices correspond one to one", "statement": "get_simplex decodes an id of dimension d <= 4 to the d+1 vertices of a simplex of base mesh x time (a chain of the product order within one interval over one tetrahedron), every such simplex has exactly one id, ordinal ids are those within one time step, and element_for_ordinal/interval visit each id of a time step exactly once.", "quantifier": "all meshes, dimensions, ids and times", "why_tests_cant": "all meshes and ids", "anchors": ["include/ftk/mesh/simplicial_unstructured_extruded_3d_mesh.hh: n, n_ordinal, n_interval, is_ordinal, simplex_type, get_simplex, element_for_ordinal, element_for_interval, flat_vertex_id, flat_vertex_time"]}
{"id": "C124", "title": "In the extruded tetrahedral mesh sides(4) and side_of(3) are exact and inverse", "statement": "sides(4,k) are exactly the five tetrahedra that are facets of pentachoron k, side_of(3,x) exactly the pentachora of which x is a facet; a tetrahedron without an edge along time lies between exactly two pentachora.", "quantifier": "all meshes, all pentachora and tetrahedra at non-negative times", "why_tests_cant": "all meshes and ids", "anchors": ["include/ftk/mesh/simplicial_unstructured_extruded_3d_mesh.hh: sides, side_of"]}
{"id": "C125", "title": "In the extruded tetrahedral mesh sides(3) and side_of(2) are exact and inverse", "statement": "sides(3,k) are exactly the four triangles of tetrahedron k, side_of(2,x) exactly the tetrahedra that contain triangle x.", "quantifier": "all meshes, all tetrahedra and triangles at non-negative times", "why_tests_cant": "all meshes and ids", "anchors": ["include/ftk/mesh/simplicial_unstructured_extruded_3d_mesh.hh: sides, side_of", "include/ftk/filters/critical_line_tracker_3d_unstructured.hh: finalize"]}
{"id": "C126", "title": "Tracking critical points on a tetrahedral mesh: each punctured space-time tetrahedron is found exactly once", "statement": "For a series of vector fields on a tetrahedral mesh, after push/advance/update in any order that keeps two snapshots at each advance, the recorded points are exactly: one per space-time tetrahedron whose vectors (each read from the snapshot of its own time) pass the robust test with the scaling factor of that moment and are affinely independent; nothing is lost or found twice, and the result does not depend on how the threads interleave. Pushing with push_vector_field_snapshot works like pushing with push_field_data_snapshot.", "quantifier": "all valid tetrahedral meshes, series of finite vector fields, orders of calls and thread schedules", "why_tests_cant": "all meshes, series and schedules", "anchors": ["include/ftk/filters/critical_point_tracker_3d_unstructured.hh: update_timestep, check_simplex, simplex_values, push_vector_field_snapshot", "include/ftk/filters/json_interface.hh: consume_unstructured loops"]}
{"id": "C127", "title": "The position of a critical point on a tetrahedral mesh is the zero of the interpolated field", "statement": "The reported position is a convex combination of the positions of the corners (time included), with weights that make the linearly interpolated vector zero.", "quantifier": "all tetrahedra of all series of vector fields", "why_tests_cant": "all real vectors", "anchors": ["include/ftk/filters/critical_point_tracker_3d_unstructured.hh: check_simplex", "include/ftk/numeric/inverse_linear_interpolation_solver.hh: inverse_lerp_s3v3"]}
{"id": "C128", "title": "Trajectories on a tetrahedral mesh follow the zero curve", "statement": "The trajectories returned after finalize partition the punctured tetrahedra; consecutive tetrahedra of a trajectory are faces of one pentachoron inside the time range, each pentachoron is passed by at most one curve, which enters by one face and leaves by another; a trajectory closes, or both ends are at the boundary (of the mesh or of the time range), and the loop flag tells which.", "quantifier": "all valid manifold tetrahedral meshes, series and schedules", "why_tests_cant": "all meshes and series", "anchors": ["include/ftk/filters/critical_point_tracker_3d_unstructured.hh: finalize"]}
{"id": "C129", "title": "Critical lines on a tetrahedral mesh: each pierced triangle is found exactly once, with the zero as its point", "statement": "After the driver loop, the recorded points are exactly the space-time triangles whose 2-vectors pass the robust test; each is stored once under its id with convex weights, its position (time included) is the weighted mean of the corners, the ordinal flag and the timestep tell where it is, and for values that are multiples of 2^-21 the weights are those, and the only ones, that make the interpolated 2-vector zero.", "quantifier": "all valid tetrahedral meshes, series and schedules", "why_tests_cant": "all meshes, values and schedules", "anchors": ["include/ftk/filters/critical_line_tracker_3d_unstructured.hh: update_timestep, check_simplex, simplex_values", "include/ftk/numeric/clamp.hh: clamp_barycentric"]}
{"id": "C130", "title": "Critical lines on a tetrahedral mesh follow the zero line through the tetrahedra", "statement": "For a single snapshot, the curves built by finalize partition the pierced triangles; consecutive triangles are faces of one tetrahedron, each tetrahedron of the mesh is passed by at most one curve, which enters by one face and leaves by another; a curve closes or both its ends are at the boundary of the mesh.", "quantifier": "all valid manifold tetrahedral meshes, 2-vector fields and schedules", "why_tests_cant": "all meshes and fields", "anchors": ["include/ftk/filters/critical_line_tracker_3d_unstructured.hh: build_vortex_lines, finalize"]}
{"id": "C131", "title": "Ids of the periodic mesh of poloidal planes name its simplices", "statement": "On a torus of planes built over a triangulation, every integer (also a negative one) is the id of a simplex, ids being counted modulo n(d); get_simplex returns its vertices in ascending order and inside the mesh; every simplex of the torus, those that cross from the last plane to the first included, has an id in 0..n(d)-1; with three planes or more the id is unique and find_simplex recovers it from the vertices in any order; get_poloidal is the plane a simplex starts in, and is_poloidal / is_actual_poloidal tell whether it lies in one (actual) plane.", "quantifier": "all valid triangulations, numbers of planes, dimensions and ids", "why_tests_cant": "all meshes and all integers", "anchors": ["include/ftk/mesh/simplicial_xgc_3d_mesh.hh: get_simplex, find_simplex, transform, n, get_poloidal, is_poloidal, is_actual_poloidal"]}
{"id": "C132", "title": "Sides and cofaces on the periodic mesh", "statement": "sides of a tetrahedron and side_of of a triangle return ids in range without repetition: four sides, one or two cofaces; they are dual to each other; with three planes or more they are exactly the pairs whose vertices are included; get_vertex_edge_vertex returns vertices joined to the given one by an edge of the torus.", "quantifier": "all valid triangulations, numbers of planes and ids", "why_tests_cant": "all meshes and all integers", "anchors": ["include/ftk/mesh/simplicial_xgc_3d_mesh.hh: sides, side_of, get_vertex_edge_vertex"]}
{"id": "C133", "title": "Coordinates of the vertices of the periodic mesh, and its slices for export", "statement": "get_coords returns the Cartesian position of a vertex, i.e. its position in the plane turned by the angle of its plane. The exported slices hold each vertex of each plane, turned by the angle of the plane, under its vertex id, and exactly the triangles that lie in one plane, with the vertices get_simplex gives.", "quantifier": "all meshes and vertices", "why_tests_cant": "all meshes", "anchors": ["include/ftk/mesh/simplicial_xgc_3d_mesh.hh: get_coords, get_coords_xyz, get_coords_rzp, to_vtu_slices", "include/ftk/mesh/simplicial_unstructured_extruded_2d_mesh.hh: get_coords"]}
{"id": "C134", "title": "Interpolation of a field to the virtual planes", "statement": "Given a field on the actual planes, interpolate returns it unchanged in the actual planes; in a virtual plane it returns the mean, weighted with the distances to the plane before and after (the last plane being followed by the first), of the weighted means over the triangles hit by the field line through the vertex; constants are kept and the values stay within the bounds of the two planes if the weights are not negative; the versions for one vertex, for the whole array and for value, gradient and Jacobian agree; initialize_interpolants provides what is needed for every vertex of every virtual plane.", "quantifier": "all meshes, numbers of planes, fields, field-line maps and vertices", "why_tests_cant": "all real fields", "anchors": ["include/ftk/mesh/simplicial_xgc_3d_mesh.hh: initialize_interpolants, interpolate", "include/ftk/numeric/xgc_interpolant.hh: xgc_interpolant_t"]}
{"id": "C135", "title": "Turbulence derived from a potential", "statement": "derive_turbulence is the deviation of the potential from its mean over the planes divided by the temperature profile, interpolated linearly between the knots of the flux (constant outside them): it has mean zero over the planes at every vertex, and adding a potential that is the same in all planes does not change it.", "quantifier": "all potentials, profiles with ascending knots, meshes and vertices", "why_tests_cant": "all real inputs", "anchors": ["include/ftk/mesh/simplicial_xgc_3d_mesh.hh: derive_turbulence"]}
{"id": "C136", "title": "Labels of superthreshold blobs on the torus mesh", "statement": "After any history of pushed snapshots and steps of the XGC blob threshold tracker, get_sliced(t) gives every vertex of the mesh of time step t a label: -1 for a vertex whose value is below the threshold, and for two vertices (of the same or of different time steps) at or above it the same label if and only if they are joined by a chain of such vertices that are neighbours on the mesh or the same vertex at consecutive time steps.", "quantifier": "all triangulations, numbers of planes, field-line interpolants, fields, thresholds and histories", "why_tests_cant": "all fields and histories", "anchors": ["include/ftk/filters/xgc_blob_threshold_tracker.hh: update_timestep, get_sliced", "include/ftk/filters/xgc_tracker.hh: push_field_data_snapshot, advance_timestep", "include/ftk/mesh/simplicial_xgc_3d_mesh.hh: get_vertex_edge_vertex, interpolate"]}
{"id": "C138", "title": "Quadratic interpolation in a triangle", "statement": "The quadratic interpolant built from the values at the three vertices and three edge midpoints of a non-degenerate triangle takes those six values, reproduces every quadratic polynomial exactly, agrees with its barycentric form, and its gradient and Hessian functions return the first and second derivatives.", "quantifier": "all non-degenerate triangles, values and points (exact arithmetic)", "why_tests_cant": "infinitely many triangles, polynomials and points", "anchors": ["include/ftk/numeric/quadratic_interpolation.hh: quadratic_interpolation_coefficients, quadratic_interpolation, quadratic_interpolation_gradient, quadratic_interpolation_hessian"]}
{"id": "C139", "title": "Parallel vectors on a triangle and on an edge", "statement": "Every solution returned by the parallel-vectors solver of a triangle (3-D vectors) or an edge (2-D vectors) is a point of the cell where the two interpolated fields are parallel with the returned factor, and every isolated such point with a factor away from zero is returned.", "quantifier": "all pairs of fields on a cell (exact arithmetic, exact root finder)", "why_tests_cant": "infinitely many fields", "anchors": ["include/ftk/numeric/parallel_vector_solver3.hh: solve_pv_s2v3", "include/ftk/numeric/parallel_vector_solver2.hh: solve_pv_s1v2"]}
{"id": "C140", "title": "Parallel vectors of 3-D fields on an edge", "statement": "The points returned by the parallel-vectors solver of an edge with 3-D vectors are exactly the points where the two fields are parallel.", "quantifier": "all pairs of fields on an edge", "why_tests_cant": "infinitely many fields", "anchors": ["include/ftk/numeric/parallel_vector_solver3.hh: solve_pv_s1v3"]}
{"id": "C141", "title": "Parallel-vectors curves as rational functions", "statement": "The polynomials returned for a tetrahedron with 3-D vectors, and for a triangle with 2-D vectors, describe the parallel-vectors set: for every factor at which the denominator does not vanish, the quotient is the one and only point (in barycentric coordinates) where the fields are parallel with that factor; for a tetrahedron the denominator vanishes exactly when there is not exactly one such point.", "quantifier": "all pairs of fields and all factors (exact arithmetic)", "why_tests_cant": "infinitely many fields and factors", "anchors": ["include/ftk/numeric/parallel_vector_solver3.hh: characteristic_polynomials_pv_s3v3", "include/ftk/numeric/parallel_vector_solver2.hh: characteristic_polynomials_pv_s2v2"]}
{"id": "C142", "title": "Zeros of bilinear and trilinear vector fields", "statement": "The inverse interpolation solvers of a square and of a cube return exactly the points of the cell where the interpolated field vanishes.", "quantifier": "all corner values (exact arithmetic)", "why_tests_cant": "infinitely many fields", "anchors": ["include/ftk/numeric/inverse_bilinear_interpolation_solver.hh: inverse_bilinear_interpolation", "include/ftk/numeric/inverse_trilinear_interpolation_solver.hh: inverse_trilinear_interpolation8_3", "include/ftk/numeric/underdetermined_eigen_solver.hh: solve_underdetermined_eigen_3x3_with_constrain"]}
{"id": "C143", "title": "Degree of a critical point in a triangle", "statement": "For a linear field with one zero inside the triangle, the degree function returns the index of the zero, +1 or -1 as the determinant of the Jacobian.", "quantifier": "all triangles and fields", "why_tests_cant": "infinitely many fields", "anchors": ["include/ftk/numeric/critical_point_degree.hh: critical_point_degree_simplex2"]}
{"id": "C144", "title": "Wachspress coordinates of a point in a convex polygon", "statement": "The interpolation weights of a point in a convex planar polygon in space are non-negative, sum to one, reproduce the point, and at a vertex select that vertex alone.", "quantifier": "all convex polygons and points", "why_tests_cant": "infinitely many polygons", "anchors": ["include/ftk/numeric/wachspress_interpolation.hh: wachspress_weights"]}
{"id": "C137", "title": "Tracking of superthreshold regions", "statement": "After pushing any sequence of 2-D scalar fields of one shape into the threshold tracker (with any threshold and comparison for each), every frame's cells that satisfy the comparison are labelled by 4-connected region and all others 0; the tracking graph has an edge between a region of one frame and a region of the next exactly when they share a cell, and no other edge; and the labels returned for the last frame are its labelling.", "quantifier": "all shapes, sequences of fields, thresholds and comparisons", "why_tests_cant": "all sequences of fields", "anchors": ["include/ftk/filters/threshold_tracker.hh: set_threshold, push_scalar_field_data_snapshot, get_last_labeled_array_snapshot", "include/ftk/filters/connected_component_tracker.hh: advance_timestep", "include/ftk/algorithms/hoshen_kopelman.hh: hoshen_kopelman_2d"]}
{"id": "C145", "title": "Degrees reported by the 2-D critical point trackers", "statement": "With set_enable_computing_degrees(true), a critical point on a triangle within one time step is reported with type 1 or 2 according to the sign of the Poincare index of the (quantised) field, in the same way by the regular-grid and the unstructured-mesh tracker, and with type 0 on triangles that extend in time.", "quantifier": "all triangles, meshes, time steps and non-degenerate fields", "why_tests_cant": "infinitely many fields and meshes", "anchors": ["include/ftk/filters/critical_point_tracker_2d_regular.hh: check_simplex", "include/ftk/filters/critical_point_tracker_2d_unstructured.hh: check_simplex", "include/ftk/mesh/simplicial_unstructured_extruded_2d_mesh.hh: get_triangle_chi", "include/ftk/mesh/simplicial_unstructured_2d_mesh.hh: build_triangles"]}
{"id": "C146", "title": "What a data stream hands to its callback", "statement": "start() followed by finish() calls the callback once per available time step (for file streams: up to the first missing file), in increasing order with the step number, with the frame smoothed in space if configured, then perturbed, then clamped, and, with a temporal kernel, with the centred convolution in time of these frames. With clamping every value delivered lies in the given range, also after temporal smoothing with non-negative weights of sum one.", "quantifier": "all configurations, frames, numbers of steps and noise values", "why_tests_cant": "all frame sequences and noise outcomes", "anchors": ["include/ftk/ndarray/stream.hh: start, finish, modified_callback", "include/ftk/numeric/clamp.hh: clamp", "include/ftk/filters/streaming_filter.hh: push, finish"]}
{"id": "C147", "title": "Asynchronous reading in data streams", "statement": "With asynchronous reading, in every interleaving of the reader thread and the caller: the callback never sees a frame under a wrong step number, out of order, or twice; start() never deadlocks and always returns; and every frame is delivered.", "quantifier": "all schedules of the two threads, all numbers of steps and frames", "why_tests_cant": "schedules cannot be enumerated by tests", "anchors": ["include/ftk/ndarray/stream.hh: start (async branch)"]}
{"id": "C148", "title": "Which data a NetCDF stream reads for a time step", "statement": "For files with a record dimension, time step k of the stream is the k-th record of all the files in order, every record being read once; otherwise it is file k. The element (x, y, z) of component c of the array is the value of the c-th variable at that record and at the position of the element in the requested block, in one, two and three dimensions.", "quantifier": "all numbers of files, records per file, variables, block positions and sizes", "why_tests_cant": "all file layouts", "anchors": ["include/ftk/ndarray/stream.hh: request_timestep_file_nc, configure (NetCDF)", "include/ftk/ndarray/ndarray_base.hh: read_netcdf"]}
{"id": "C149", "title": "The MPAS layer at a depth", "statement": "For tops that do not increase a depth lies in at most one layer (at or below its top, above the next top). The bisection always ends, answers -1 exactly for depths above the first or not above the last top, and otherwise a layer that contains the depth. The linear search gives the same answer.", "quantifier": "all lists of tops and all depths", "why_tests_cant": "termination and the choice of the layer for every list of tops", "anchors": ["include/ftk/numeric/mpas.hh: locate_mpas_layer_brute_force, locate_mpas_layer_bisection"]}
{"id": "C150", "title": "A point in an MPAS cell", "statement": "A point is reported in a cell exactly if it is on the inner side of the planes through the origin and each side. The answer depends on the direction of the point only; cells are convex; vertices of a convex counterclockwise cell and their combinations with non-negative weights are in it; neighbouring cells have no common point off their common side; cells given clockwise reject their interior.", "quantifier": "all cells with any number of vertices and all points", "why_tests_cant": "geometry of every cell and point", "anchors": ["include/ftk/numeric/mpas.hh: point_in_mpas_cell"]}
{"id": "C151", "title": "The MPAS cell that contains a point", "statement": "A cell that is returned contains the point, for every mesh, hint and search tree. In a Voronoi mesh every point is located with every hint; a point in one cell only gets that cell whatever the hint.", "quantifier": "all meshes, points and hints", "why_tests_cant": "all meshes and search histories (hints)", "anchors": ["include/ftk/mesh/mpas_mesh.hh: point_in_cell_i, locate_cell_i, verts_i_on_cell_i, verts_i_coords"]}
{"id": "C152", "title": "Identifiers and positions in MPAS files", "statement": "The maps between identifiers and positions are inverse to each other for distinct identifiers, unknown identifiers give -1, and the shortcut for consecutive identifiers agrees with the table.", "quantifier": "all lists of identifiers", "why_tests_cant": "all numberings of files", "anchors": ["include/ftk/mesh/mpas_mesh.hh: cid2i, eid2i, vid2i, i2cid, i2vid, read_netcdf"]}
{"id": "C153", "title": "Values from MPAS cells to vertices", "statement": "A vertex at the boundary gets 0, a vertex with an invalid cell value NaN; any other vertex gets a combination of its three cell values with weights of sum one that do not depend on the values: those of the point of the plane of the centres that is nearest to the vertex. Constants are reproduced, affine fields at vertices in the plane of the centres.", "quantifier": "all meshes, vertices and fields", "why_tests_cant": "all fields and geometries", "anchors": ["include/ftk/mesh/mpas_mesh.hh: initialize_c2v_interpolants, interpolate_c2v", "include/ftk/numeric/inverse_linear_interpolation_solver.hh: inverse_lerp_s2v3"]}
{"id": "C154", "title": "Velocity evaluation in MPAS ocean data", "statement": "An evaluation that succeeds used a cell that contains the point and the layer that contains its depth, interpolates linearly in depth between combinations of the vertex values of the two tops with Wachspress weights, stays within the range of these values for plane convex cells, and finds the layer whenever there is one, with every hint.", "quantifier": "all meshes, points, hints, tops and fields", "why_tests_cant": "all positions and hints along every trajectory", "anchors": ["include/ftk/filters/particle_tracer_mpas_ocean.hh: eval_v_with_vertical_velocity"]}
{"id": "C155", "title": "Seeds for MPAS particles", "statement": "Seeds on a grid of angles and depths are at the distance radius plus depth, at equally spaced values including both ends, in the order of the grid without points that are in no cell, and tagged with a cell that contains them. Seeds at grid points are at the depths of the layers of their cell.", "quantifier": "all grids, meshes and layer thicknesses", "why_tests_cant": "all grids and meshes", "anchors": ["include/ftk/filters/particle_tracer_mpas_ocean.hh: initialize_particles_latlonz, initialize_particles_at_grid_points", "include/ftk/mesh/mpas_mesh.hh: read_netcdf (accRestingThickness)"]}
{"id": "C156", "title": "Numbers of integration steps for MPAS particles", "statement": "The steps between two time steps of the data cover exactly the interval between them, with the requested number of steps per day, for every length of the interval.", "quantifier": "all interval lengths and settings", "why_tests_cant": "all interval lengths", "anchors": ["include/ftk/filters/particle_tracer_mpas_ocean.hh: update_timestep", "include/ftk/filters/particle_tracer.hh: delta"]}
{"id": "C157", "title": "Blob filaments: the whole run", "statement": "For every series of timesteps and every order in which cells are visited, a run of the tracker is defined, and its intersections are exactly those the cell test reports for the triangles of the space-time mesh, each tested once with the data of its own timesteps (with the scaling factor in force); related cells are exactly the cofaces of these triangles. The result does not depend on the order of execution.", "quantifier": "all series, meshes, cell tests and orders of execution", "why_tests_cant": "all numbers of timesteps and all schedules of threads", "anchors": ["include/ftk/filters/xgc_blob_filament_tracker.hh: update_timestep, update, push_field_data_snapshot, check_simplex", "include/ftk/filters/xgc_tracker.hh: advance_timestep"]}
{"id": "C158", "title": "Ordinal output per timestep", "statement": "In ordinal-only mode the lines written for a timestep are built from the triangles of that timestep and the data of that timestep.", "quantifier": "all series and timesteps", "why_tests_cant": "every timestep of every series", "anchors": ["include/ftk/filters/xgc_blob_filament_tracker.hh: update_timestep (ordinal_only)"]}
{"id": "C159", "title": "Filament surfaces", "statement": "The surface has one point per intersection; its triangles join points on a common cell, for every order of the cells; a cell with three points contributes its triangle, with four points a quadrilateral; every interval of the series contributes.", "quantifier": "all intersection tables, cell orders and series", "why_tests_cant": "all tables and all orders of parallel insertion", "anchors": ["include/ftk/filters/xgc_blob_filament_tracker.hh: build_critical_surfaces, check_penta", "include/ftk/features/feature_surface_set.hh"]}
{"id": "C160", "title": "Archives of intersections", "statement": "Intersections written to an archive and read back give the same related cells and so the same surfaces.", "quantifier": "all runs", "why_tests_cant": "every table of intersections", "anchors": ["include/ftk/filters/xgc_blob_filament_tracker.hh: read_intersections_binary, write_intersections, finalize"]}
{"id": "C161", "title": "Angles across the seam", "statement": "The plane numbers of the vertices of a simplex between the last and the first plane are made consecutive, those of other simplices are unchanged.", "quantifier": "all numbers of planes and all simplices", "why_tests_cant": "every number of planes", "anchors": ["include/ftk/filters/xgc_blob_filament_tracker.hh: simplex_indices, simplex_values"]}
{"id": "C162", "title": "Post-processing of filament curves", "statement": "Post-processing of non-empty curves is defined; every resulting curve has at least two points, all maxima, in order from a rotation of the poloidal points of one input curve; with virtual planes it extends over more than the virtual planes between two planes; types are smoothed only where the two neighbours on both sides agree; curves of maxima with at least two poloidal points survive unchanged, and no run of two or more maxima is lost.", "quantifier": "all curve sets", "why_tests_cant": "every sequence of types, loop or not", "anchors": ["include/ftk/filters/xgc_blob_filament_tracker.hh: post_process_curves", "include/ftk/features/feature_curve_set.hh: split_all, filter"]}
{"id": "C163", "title": "Velocities of filament points", "statement": "A poloidal point inside a timestep gets the differences of psi and theta to a nearest reachable point of the same plane in the next timestep, nearest in number of triangle edges, exactly if one is reachable; otherwise the velocity is left alone.", "quantifier": "all surfaces and points", "why_tests_cant": "all triangulations, search over an unbounded graph", "anchors": ["include/ftk/filters/xgc_blob_filament_tracker.hh: post_process_surfaces"]}
{"id": "C164", "title": "Woven data", "statement": "The woven data have the function's value at every vertex of a grid that spans the scaled square with equal distances; the gradient functions are the derivatives of the woven function; data rotate rigidly with time, with period 2 pi, and their critical points at time 0 are exactly the places where the one coordinate is a multiple of pi and the other is half a period off; a part of the data is the restriction of the whole; the capped gradient is the gradient where the value is below the cap and zero elsewhere.", "quantifier": "all grid sizes, parts, places and times", "why_tests_cant": "all sizes and all real places and times", "anchors": ["include/ftk/ndarray/synthetic.hh: woven_function_2Dt, woven_grad_x_2Dt, woven_grad_y_2Dt, synthetic_woven_2D, synthetic_woven_2D_part, synthetic_capped_woven_grad_2D"]}
{"id": "C165", "title": "Double gyre", "statement": "The double gyre has a stream function (so no divergence), nothing leaves the domain at any time, the flow is periodic in time, and the grid has these velocities, with no flow through the vertices on the boundary.", "quantifier": "all places, times, parameters and grid sizes", "why_tests_cant": "all real places and times", "anchors": ["include/ftk/ndarray/synthetic.hh: double_gyre, synthetic_double_gyre"]}
{"id": "C166", "title": "ABC flow", "statement": "The ABC flow is free of divergence and its curl is the velocity; every vertex of the grid has the velocity at its place in the cube of side 2 pi, and velocities on opposite sides agree.", "quantifier": "all parameters, places and grid sizes", "why_tests_cant": "all real parameters and places", "anchors": ["include/ftk/ndarray/synthetic.hh: synthetic_abc_flow"]}
{"id": "C167", "title": "Moving extremum", "statement": "Every element is the squared distance of its vertex from a centre that moves with constant velocity: never negative, zero exactly at the centre, and strictly least at a vertex less than half a cell from the centre in every direction; the gradient generated for the same data on an unstructured mesh is its gradient.", "quantifier": "all dimensions, shapes, centres, velocities and times", "why_tests_cant": "all dimensions and shapes, all times", "anchors": ["include/ftk/ndarray/synthetic.hh: synthetic_moving_extremum, synthetic_moving_extremum_unstructured, synthetic_moving_extremum_grad_unstructured"]}
{"id": "C168", "title": "Ramps, volcano and merger", "statement": "The zero level of the moving ramp is the plane at x0 + rate t, that of the dual ramp the two planes at the distance rate t from x0; the volcano is positive, at most 1, and 1 exactly at the vertices at the given distance from its centre; the merger is positive, at most 1, and 1 exactly at the two centres, which coincide exactly when cos t = 0.", "quantifier": "all shapes, places, times and parameters", "why_tests_cant": "all shapes and all real places and times", "anchors": ["include/ftk/ndarray/synthetic.hh: synthetic_moving_ramp, synthetic_moving_dual_ramp, synthetic_volcano, merger_function_2Dt"]}
{"id": "C169", "title": "Reference-counted pointers", "statement": "Over every history of construction, copying, assignment, swap, reset and destruction, and for every schedule of threads that destroy their handles, no released memory is used, nothing is released twice, a live handle refers to a live object, and an object is released exactly when its last handle goes.", "quantifier": "all histories of operations and all schedules of destruction", "why_tests_cant": "all histories and schedules", "anchors": ["include/ftk/utils/async_ptr.hh: async_ptr, operator=, reset, swap, clear"]}
{"id": "C170", "title": "Broadcast and scatter of serialized values", "statement": "After bcastv every rank has the root's value; after scatterv rank r has the root's r-th value; whatever the ranks had before and whatever ranks other than the root pass.", "quantifier": "all numbers of ranks, roots, values and previous values", "why_tests_cant": "all numbers of ranks and all values", "anchors": ["include/ftk/utils/bcast.hh: bcastv", "include/ftk/utils/scatter.hh: scatterv"]}
{"id": "C171", "title": "Strings and option lists", "statement": "starts_with and ends_with decide prefixes and suffixes (ends_with_lower without regard to case); splitting at commas gives back the pieces that were joined; a list of post-processing operations is applied in its order, an unknown word is an error wherever it stands, and every operation has its documented effect.", "quantifier": "all strings and all lists of operations", "why_tests_cant": "all strings", "anchors": ["include/ftk/utils/string.hh: starts_with, ends_with, ends_with_lower, split", "include/ftk/filters/feature_curve_set_post_processor.hh: parse_ops, filter"]}
{"id": "C172", "title": "Formats from file names", "statement": "The format of a file is the one its extension names, in any case, independent of the order of the tests, for input files and for output files; a format given by the user is obeyed; removing the extension leaves the rest of the name.", "quantifier": "all file names and formats", "why_tests_cant": "all strings", "anchors": ["include/ftk/io/util.hh: file_extension, remove_file_extension", "include/ftk/geometry/write_polydata.hh: write_polydata", "include/ftk/filters/json_interface.hh: configure (output_format)"]}
{"id": "C173", "title": "Series of files", "statement": "Different timesteps (and different ranks' pieces) have different file names, and names sort in the order of the timesteps.", "quantifier": "all patterns, widths and timesteps", "why_tests_cant": "all timesteps", "anchors": ["include/ftk/io/util.hh: series_filename, glob", "include/ftk/geometry/write_polydata.hh: write_polydata (pvtp)"]}
{"id": "C174", "title": "Region of interest of an XGC mesh", "statement": "The region consists of exactly the vertices whose poloidal angle lies between the two given angles and whose normalised flux lies between the two given bounds; the mesh made of it has these vertices in their order, with their coordinates and fluxes, and exactly the triangles all of whose vertices are in the region.", "quantifier": "all meshes, fluxes, angles and bounds", "why_tests_cant": "all meshes and bounds", "anchors": ["include/ftk/mesh/simplicial_xgc_2d_mesh.hh: initialize_roi, new_roi_mesh"]}
{"id": "C175", "title": "Magnetic field lines", "statement": "The field is interpolated linearly in the triangle containing the point and is zero outside; tracing for a given angle ends at that angle (in either direction) unless the line leaves the mesh; every step is a Runge-Kutta step of the field-line equation; the planes of a traced field line belong to the planes of the mesh; the next node of a point is the vertex of its triangle with the largest weight.", "quantifier": "all meshes, fields, starting points, angles and numbers of steps", "why_tests_cant": "all fields and numbers of steps", "anchors": ["include/ftk/mesh/simplicial_xgc_2d_mesh.hh: eval_b, magnetic_map, magnetic_map_2pi_total_B, nextnode, nearest", "include/ftk/io/xgc_eq.hh: eval_b, eval_L"]}
{"id": "C176", "title": "Gradients on unstructured meshes", "statement": "The gradient at a vertex is the mean over its triangles of the gradient of the linear interpolant; it is exact for linear fields, for scalar and for vector fields; the Jacobian of the gradient of a linear field is zero.", "quantifier": "all meshes and fields", "why_tests_cant": "all meshes and fields", "anchors": ["include/ftk/mesh/simplicial_unstructured_2d_mesh.hh: scalar_gradient, vector_gradient, scalar_gradient_jacobian"]}
{"id": "C177", "title": "Derived magnetic fields", "statement": "The unit field has norm one and the direction of the field; the curl of the unit field and the perturbed field are the curl in cylindrical coordinates and the curl of the potential along the unit field; the total field is the sum of the background and the perturbation.", "quantifier": "all meshes, background fields and potentials", "why_tests_cant": "all fields", "anchors": ["include/ftk/mesh/simplicial_xgc_2d_mesh.hh: initialize_bfield0, initialize_curl_bfield0, derive_delta_B, derive_total_B"]}
{"id": "C178", "title": "Smoothing kernels", "statement": "The kernel of a vertex contains exactly the vertices reachable along edges inside the disc of radius three sigma, each once in ascending order, with its Gaussian weight.", "quantifier": "all meshes, vertices and sigmas", "why_tests_cant": "all meshes", "anchors": ["include/ftk/mesh/simplicial_unstructured_2d_mesh.hh: build_smoothing_kernel"]}
{"id": "C179", "title": "Smoothed fields and their derivatives", "statement": "The smoothed field, its gradient and its Jacobian are the convolution of the field with the Gaussian kernel and the first and second derivatives of that convolution; constant fields stay constant.", "quantifier": "all meshes, fields and sigmas", "why_tests_cant": "all fields", "anchors": ["include/ftk/mesh/simplicial_unstructured_2d_mesh.hh: smooth_scalar_gradient_jacobian"]}
{"id": "C180", "title": "XGC units", "statement": "Reading a units file sets every member to the last number assigned to it in the file and leaves the others at their defaults, or reports failure.", "quantifier": "all files (sequences of lines) and all number formats", "why_tests_cant": "all texts", "anchors": ["include/ftk/io/xgc_units.hh: xgc_units_t::read"]}
{"id": "C181", "title": "Numbers of planes from the XGC input file", "statement": "The numbers of planes and of wedges are the last numeric values assigned in the input file, whatever sections, comments and other assignments it contains.", "quantifier": "all files (sequences of lines)", "why_tests_cant": "all texts", "anchors": ["include/ftk/io/xgc_stream.hh: probe_nphi_iphi"]}
{"id": "C182", "title": "Steps of XGC and MPAS runs", "statement": "The step of a file is recovered from its name; a stream delivers the timesteps from the start on, each exactly once, in order, with its index, and as many as asked for.", "quantifier": "all sets of files, starts and numbers of steps, and any number of calls", "why_tests_cant": "all histories of calls", "anchors": ["include/ftk/io/xgc_stream.hh: filename2step, filename, filename_step, initialize", "include/ftk/io/xgc_stream_h5.hpp: advance_timestep", "include/ftk/io/xgc_stream_adios2.hpp: advance_timestep", "include/ftk/io/mpas_stream.hh: initialize, advance_timestep"]}
{"id": "C183", "title": "The triangles of a tube", "statement": "The tube around a curve with n >= 2 points and k patches has k vertices per point and 2k triangles per segment, all indices valid; for k >= 3 it is a consistently oriented cylinder: every edge not on the first or last ring belongs to exactly two triangles, in opposite directions. Arrays are only read in bounds if every point has a colour.", "quantifier": "all curves, colours, numbers of patches and radii", "why_tests_cant": "all curves and numbers of patches", "anchors": ["include/ftk/geometry/curve2tube.hh: curve2tube"]}
{"id": "C184", "title": "The shape of a tube", "statement": "Every vertex of the tube lies at distance radius from its curve point in the plane orthogonal to the curve, evenly spaced around it, with the outward unit normal; all vertices are numbers.", "quantifier": "all curves, numbers of patches and radii (real arithmetic)", "why_tests_cant": "all curves, a continuum", "anchors": ["include/ftk/geometry/curve2tube.hh: curve2tube", "include/ftk/numeric/vector_normalization.hh: vector_normalization2_3", "include/ftk/numeric/cross_product.hh: cross_product", "include/ftk/numeric/vector_assignment.hh: vector_assign_weighted_addition3"]}
{"id": "C185", "title": "The colours of a tube", "statement": "The vertices around a curve point carry the colour of that point.", "quantifier": "all curves and colours", "why_tests_cant": "all curves", "anchors": ["include/ftk/geometry/curve2tube.hh: curve2tube"]}
{"id": "C186", "title": "The hash function", "statement": "Keys of equal length that differ only within one aligned group of four bytes (or within the last one to three) never collide, nor do different seeds on the same key; keys that differ in two groups can collide.", "quantifier": "all keys, positions and seeds", "why_tests_cant": "2^32 and more cases for every key", "anchors": ["include/ftk/basic/murmurhash2.hh: murmurhash2"]}
{"id": "C187", "title": "Cached kernels and interpolants", "statement": "A cached smoothing kernel or interpolant is the one that would be computed for the mesh and parameters at hand.", "quantifier": "all meshes, parameters and sequences of requests in one directory", "why_tests_cant": "all histories of the cache directory", "anchors": ["include/ftk/mesh/simplicial_unstructured_2d_mesh.hh: build_smoothing_kernel_cached, default_smoothing_kernel_filename", "include/ftk/mesh/simplicial_xgc_3d_mesh.hh: initialize_interpolants_cached, default_interpolant_filename", "include/ftk/ndarray.hh: hash"]}
{"id": "C188", "title": "Cells of the explicit extruded mesh", "statement": "For an explicit extruded mesh whose tetrahedra fill one period between two equal planes, the integer ids number the edges, triangles and tetrahedra of all periods one to one; adding n(d) moves a cell to the next period; cells shared by two periods have one id.", "quantifier": "all periods (any tetrahedra between two corresponding planes), all ids", "why_tests_cant": "all meshes, infinitely many periods", "anchors": ["include/ftk/mesh/simplicial_unstructured_extruded_2d_mesh_explicit.hh: initialize, n, get_simplex"]}
{"id": "C189", "title": "Sides and cofaces in the explicit extruded mesh", "statement": "sides(d, k) is the set of the facets of a cell and side_of(d, k) the set of the cells it is a facet of, including those in the previous period for a cell in the lower plane.", "quantifier": "all meshes, all ids", "why_tests_cant": "all meshes, infinitely many periods", "anchors": ["include/ftk/mesh/simplicial_unstructured_extruded_2d_mesh_explicit.hh: sides, side_of, normalize"]}
{"id": "C190", "title": "Configuring the writer of data series", "statement": "A configuration is accepted exactly if nd, filename and format are given, every field has the documented form and, for the format nc, a variable is given; what is left out gets the documented default.", "quantifier": "all JSON objects", "why_tests_cant": "all configurations", "anchors": ["include/ftk/ndarray/writer.hh: configure, write_netcdf"]}
{"id": "C191", "title": "NetCDF files written from a data series", "statement": "For every series of arrays, the file of a time step has the array's dimensions, slowest first, after an unlimited time dimension if asked for, and each variable holds its data; reading the series back with the NetCDF stream gives the same arrays in the same order.", "quantifier": "all series of arrays, names and dimensions", "why_tests_cant": "all data and all dimensions", "anchors": ["include/ftk/ndarray/writer.hh: filename, write, write_netcdf, consume", "include/ftk/ndarray/ndarray_base.hh: to_netcdf, to_netcdf_unlimited_time, read_netcdf"]}
{"id": "C192", "title": "Writing NetCDF stays inside memory", "statement": "Writing an array reads nothing outside the array, its list of dimensions or the vectors describing the block.", "quantifier": "all arrays and configurations", "why_tests_cant": "memory errors show only under instrumentation", "anchors": ["include/ftk/ndarray/writer.hh: write_netcdf", "include/ftk/ndarray/ndarray_base.hh: to_netcdf, to_netcdf_unlimited_time"]}
{"id": "C193", "title": "Groups of arrays", "statement": "After any sequence of set calls, get returns for every key the array set last, and has tells whether there is one.", "quantifier": "all sequences of calls", "why_tests_cant": "all histories", "anchors": ["include/ftk/ndarray/ndarray_group.hh: has, set, get, get_ptr"]}
{"id": "C194", "title": "Smoothing kernel of a tetrahedral mesh", "statement": "Building the smoothing kernel terminates on every legal tetrahedral mesh; the kernel of a vertex lists in ascending order exactly the vertices reachable along mesh edges inside the ball of radius 3 sigma, each once, with the Gaussian weight of its distance.", "quantifier": "all legal tetrahedral meshes, coordinates and sigma", "why_tests_cant": "all meshes and all positions of the vertices", "anchors": ["include/ftk/mesh/simplicial_unstructured_3d_mesh.hh: build_smoothing_kernel", "include/ftk/algorithms/bfs.hh: bfs"]}
{"id": "C195", "title": "Smoothed fields on tetrahedral meshes", "statement": "Smoothing gives the Gaussian-blurred field at every vertex, its gradient and its Hessian there, whatever the output arrays contained before.", "quantifier": "all kernels, fields, coordinates and sigma", "why_tests_cant": "all real-valued fields; derivatives are limits", "anchors": ["include/ftk/mesh/simplicial_unstructured_3d_mesh.hh: smooth_scalar_gradient_jacobian"]}
{"id": "C196", "title": "Tetrahedra of a field-following mesh", "statement": "The tetrahedron numbers of a field-following mesh run through one copy of the unit mesh between every plane and the next, periodically; each has four different vertices in ascending order and different numbers are different tetrahedra.", "quantifier": "all unit meshes, numbers of planes and tetrahedron numbers", "why_tests_cant": "all meshes and all numbers of planes", "anchors": ["include/ftk/mesh/simplicial_xgc_3dff_mesh.hh: n, get_simplex"]}
{"id": "C197", "title": "Initialising and querying a field-following mesh", "statement": "A field-following mesh can be initialised from a file or created together with its file, and each of its simplices can be listed and looked up again.", "quantifier": "all meshes, files and simplices", "why_tests_cant": "all meshes and all states of the file system", "anchors": ["include/ftk/mesh/simplicial_xgc_3dff_mesh.hh: initialize_ff_mesh, find_simplex, get_simplex, n"]}
{"id": "C198", "title": "Small matrix functions compute what they say", "statement": "The products, transpositions (also in place), traces, sums, unit matrix, symmetric and antisymmetric parts and cross products are those of linear algebra, and what is behind the output in memory is not touched.", "quantifier": "all matrices, of any size where the function is generic", "why_tests_cant": "all numbers and sizes", "anchors": ["include/ftk/numeric/matrix_multiplication.hh: matrix_matrix_multiplication, matrix2x2_matrix2x2_multiplication, matrix3x3_vector3_multiplication", "include/ftk/numeric/transpose.hh: transpose, transpose2x2, transpose3x3, transpose4x4, transpose3x2, transpose2x3, transpose4x3", "include/ftk/numeric/trace.hh: trace, trace2, trace3", "include/ftk/numeric/symmetric_matrix.hh: make_symmetric2x2, make_symmetric3x3", "include/ftk/numeric/matrix_decomposition.hh: matrix_symmetric_decomposition_3x3, matrix_antisymmetric_decomposition_3x3", "include/ftk/numeric/eye.hh: eye3", "include/ftk/numeric/submatrix.hh: submatrix_3x3_2x2", "include/ftk/numeric/cross_product.hh: cross_product", "include/ftk/numeric/inner_product.hh: inner_product3", "include/ftk/numeric/vector_dot_product.hh: vector_dot_product3"]}
{"id": "C199", "title": "Matrix products stay inside the output they declare", "statement": "A matrix product called with arrays of the declared types writes only inside the output array.", "quantifier": "all matrices and output arrays", "why_tests_cant": "memory errors show only under instrumentation", "anchors": ["include/ftk/numeric/matrix_multiplication.hh: matrix3x4_matrix4x2_multiplication, matrix_matrix_multiplication"]}
{"id": "C200", "title": "Bilinear and trilinear interpolation", "statement": "Interpolation reproduces the corner values, is exact for fields linear in each coordinate and stays between the bounds of the corner values inside the cell; the four versions of bilinear interpolation agree.", "quantifier": "all corner values and coordinates", "why_tests_cant": "all real numbers", "anchors": ["include/ftk/numeric/bilinear_interpolation.hh: bilinear_interpolation3, bilinear_interpolation3_location", "include/ftk/numeric/trilinear_interpolation.hh: trilinear_interpolation3"]}
{"id": "C201", "title": "Meshes written to VTU files can be read again", "statement": "Writing an unstructured triangle or tetrahedral mesh to a VTU file and reading it gives the same mesh: vertices, cells, their numbers, orientation and neighbours.", "quantifier": "all legal meshes and coordinates", "why_tests_cant": "all meshes", "anchors": ["include/ftk/mesh/simplicial_unstructured_3d_mesh.hh: from_vtu, to_vtu", "include/ftk/mesh/simplicial_unstructured_2d_mesh.hh: from_vtu, to_vtu", "include/ftk/mesh/simplicial_unstructured_mesh.hh: from_vtk_unstructured_grid_file, to_vtk_unstructured_grid_file"]}
{"id": "C202", "title": "Reading a file into a mesh that was in use", "statement": "After reading a file a mesh behaves like a new mesh that has read the same file, whatever it contained before.", "quantifier": "all meshes, files and histories", "why_tests_cant": "all histories of the object", "anchors": ["include/ftk/mesh/simplicial_unstructured_3d_mesh.hh: from_vtu, initialize, build_tetrahedra, build_triangles, build_edges"]}
{"id": "C203", "title": "Critical values and poles of a rational inequality", "statement": "The quantised solvers of P(x)/Q(x) >= 0 cut the line exactly at the cells in which the multiplicities of the roots of P and of Q differ, in increasing order, and treat a cell as a pole exactly when Q has the larger multiplicity.", "quantifier": "all lists of roots with multiplicities and all quantisation factors", "why_tests_cant": "all root configurations", "anchors": ["include/ftk/numeric/cubic_rational_inequality_solver.hh: solve_cubic_rational_inequality_quantized", "include/ftk/numeric/quadratic_rational_inequality_solver.hh: solve_quadratic_rational_inequality_quantized"]}
{"id": "C204", "title": "Rational inequality solvers return the solution set", "statement": "At every grid point outside the cells of the roots, the returned set contains the point if and only if P/Q is nonnegative there.", "quantifier": "all polynomials of degree up to 2 or 3, all quantisation factors, all grid points", "why_tests_cant": "all real coefficients and an infinite grid", "anchors": ["include/ftk/numeric/cubic_rational_inequality_solver.hh: solve_cubic_rational_inequality_quantized", "include/ftk/numeric/quadratic_rational_inequality_solver.hh: solve_quadratic_rational_inequality_quantized", "include/ftk/numeric/basic_interval.hh: sample", "include/ftk/numeric/disjoint_intervals.hh: join"]}
{"id": "C205", "title": "Rational inequality solvers on degenerate input", "statement": "A zero numerator gives the whole line and a zero denominator the empty set; the solvers read nothing outside their coefficients; a pole is not in the solution set.", "quantifier": "all coefficient arrays", "why_tests_cant": "all inputs; reads past an array are silent", "anchors": ["include/ftk/numeric/quadratic_rational_inequality_solver.hh: solve_quadratic_rational_inequality_quantized", "include/ftk/numeric/cubic_rational_inequality_solver.hh: solve_cubic_rational_inequality_quantized", "include/ftk/numeric/polynomial.hh: polynomial_equals_to_zero"]}
{"id": "C206", "title": "Hue, saturation and intensity to colours", "statement": "The converted colour has the given intensity as the mean of its components and the given saturation (its smallest component is intensity times one minus saturation) before clamping; the components returned lie in [0,1], and nothing is clamped when the colour can be represented.", "quantifier": "all hues, saturations and intensities", "why_tests_cant": "all real numbers", "anchors": ["include/ftk/utils/zcolor.h: HSI2RGB, validColor"]}
{"id": "C207", "title": "Colour tables", "statement": "A table of n colours has n colours with components 0..255, different features get different colours, and the random table is a rearrangement of the regular one.", "quantifier": "all numbers of colours and all shuffles", "why_tests_cant": "all sizes; the shuffle is random", "anchors": ["include/ftk/utils/random_color.hh: generate_colors, generate_random_colors"]}
{"id": "C208", "title": "Threads, accelerators and devices of a filter", "statement": "A comma-separated list of numbers selects exactly these devices in this order; any other text throws and changes nothing; the names of backends and accelerators select them and nothing else; a new filter has at least one thread.", "quantifier": "all lists of device numbers, all texts, all machines", "why_tests_cant": "all texts; the number of threads depends on the machine", "anchors": ["include/ftk/filters/filter.hh: set_device_ids, use_thread_backend, use_accelerator, default_nthreads", "include/ftk/utils/string.hh: split"]}
