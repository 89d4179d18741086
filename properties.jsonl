{"id": "C01", "title": "Packing a ragged list is lossless and its index tensors are right", "statement": "list_to_packed(xs) followed by packed_to_list with the returned counts gives back xs; first_idx[i] is the position of element i's first row, packed_to_list_idx[r] is the element row r came from, also when some elements are empty.", "quantifier": "all non-empty lists of tensors of any lengths, including zero-length elements anywhere", "why_tests_cant": "the index arithmetic (cumulative sums, bucketize over repeated boundaries) must be right for every pattern of lengths and empty elements; tests sample a few patterns", "anchors": ["pytorch3d/structures/utils.py:list_to_packed", "pytorch3d/structures/utils.py:packed_to_list"]}
{"id": "C02", "title": "Padding a ragged list is lossless", "statement": "list_to_padded(xs, pad_size, v) succeeds when pad_size is absent (and some element is non-empty) or at least as large as every element, raises when an element of two or more rows is longer than pad_size (an over-long one-row element, only possible for pad_size 0, is silently dropped), and when it fits padded_to_list(result, lengths) gives back xs; every position beyond an element's length holds v; the 'equisized' fast path agrees with the general one.", "quantifier": "all lists of sequences, all pad values, all requested pad sizes", "why_tests_cant": "ranges over all ragged shapes and pad sizes and over two code paths that must agree", "anchors": ["pytorch3d/structures/utils.py:list_to_padded", "pytorch3d/structures/utils.py:padded_to_list"]}
{"id": "C03", "title": "padded_to_packed agrees with the list view", "statement": "padded_to_packed with split_size with every split_size[i] at most the padded width returns exactly the concatenation of the first split_size[i] rows of each batch element in order (a larger split_size silently takes rows of the next element); with pad_value it keeps exactly the rows not entirely equal to pad_value (so genuine rows equal to the pad value are lost); passing both is an error.", "quantifier": "all padded tensors, split sizes and pad values", "why_tests_cant": "the lossy case depends on data values colliding with the pad value; equality must hold for every batch layout", "anchors": ["pytorch3d/structures/utils.py:padded_to_packed"]}
{"id": "C04", "title": "packed_to_padded and padded_to_packed ops invert each other and are each other's gradient", "statement": "For first_idxs of consecutive segments and max_size at least the longest segment, padded_to_packed(packed_to_padded(x)) = x, rows past a segment's end are 0, no memory outside the tensors is touched, and <packed_to_padded(x), g> = <x, padded_to_packed(g)>; a too small max_size makes the kernel write outside the row.", "quantifier": "all packed inputs, all segmentations (empty segments included), all max_size", "why_tests_cant": "memory safety and adjointness quantify over all segmentations; a test can only show absence of a crash on some", "anchors": ["pytorch3d/csrc/packed_to_padded_tensor/packed_to_padded_tensor_cpu.cpp:PackedToPaddedCpu", "pytorch3d/csrc/packed_to_padded_tensor/packed_to_padded_tensor_cpu.cpp:PaddedToPackedCpu", "pytorch3d/ops/packed_to_padded.py:packed_to_padded"]}
{"id": "C05", "title": "Meshes: list, packed and padded views always describe the same batch, in any order of access", "statement": "For a Meshes object built from lists with at least one non-empty mesh, whatever sequence of accessors (verts_list, faces_packed, verts_padded, edges_packed, ...) was called before, every accessor returns the value determined by the constructor's lists alone; accessors never change what later accessors return.", "quantifier": "all input lists and all finite histories of accessor calls", "why_tests_cant": "lazy caches are filled in different orders by different histories; only a proof over all histories rules out order dependence", "anchors": ["pytorch3d/structures/meshes.py:Meshes._compute_packed", "pytorch3d/structures/meshes.py:Meshes._compute_padded", "pytorch3d/structures/meshes.py:Meshes.verts_list", "pytorch3d/structures/meshes.py:Meshes.faces_list"]}
{"id": "C06", "title": "Meshes: in-place and functional updates keep all views consistent", "statement": "After any history of accessor calls interleaved with offset_verts_/scale_verts_/update_padded/clone, on objects built from lists or padded tensors, all views agree and equal those of the list of vertices obtained by applying the updates to the constructor's vertices; faces never change; malformed arguments are rejected. The one exception: scale_verts_ does not refresh cached vertex normals, so when a scaling changes the computed normals (factor 0, or lengths near the 1e-6 guard) the normals returned later depend on whether they had been read before.", "quantifier": "all batches, all finite histories mixing accessors and updates", "why_tests_cant": "each update touches up to three caches, present or absent depending on the past; the property ranges over all histories", "anchors": ["pytorch3d/structures/meshes.py:Meshes.offset_verts_", "pytorch3d/structures/meshes.py:Meshes.scale_verts_", "pytorch3d/structures/meshes.py:Meshes.update_padded"]}
{"id": "C07", "title": "Meshes: indexing, splitting, extending, joining and cloning are list operations", "statement": "meshes[i], meshes[list/slice/mask], meshes.split, meshes.extend(n), join_meshes_as_batch and clone contain exactly the vertices and faces of the corresponding list operation, so split then join gives back the batch and extend(n) repeats each mesh n times in order.", "quantifier": "all batches, all index forms, all split sizes, all n", "why_tests_cant": "must hold for every batch and index pattern, including negative indices and repeated indices", "anchors": ["pytorch3d/structures/meshes.py:Meshes.__getitem__", "pytorch3d/structures/meshes.py:Meshes.split", "pytorch3d/structures/meshes.py:Meshes.extend", "pytorch3d/structures/meshes.py:join_meshes_as_batch", "pytorch3d/structures/meshes.py:Meshes.clone"]}
{"id": "C08", "title": "edges_packed lists every undirected edge exactly once and faces_packed_to_edges_packed points to the right one", "statement": "Each row of edges_packed is (a,b) with a<=b, rows are strictly increasing, the set of rows is exactly the set of undirected sides of faces, entry [f,i] of faces_packed_to_edges_packed is the edge of face f opposite its i-th vertex, and per-mesh counts and first indices delimit the edges of each mesh.", "quantifier": "all batches of meshes with valid face indices", "why_tests_cant": "correctness of the hash V*a+b, of unique/inverse and of per-mesh grouping must hold for every mesh", "anchors": ["pytorch3d/structures/meshes.py:Meshes._compute_edges_packed", "pytorch3d/structures/meshes.py:Meshes.edges_packed", "pytorch3d/structures/meshes.py:Meshes.faces_packed_to_edges_packed"]}
{"id": "C09", "title": "Meshes: face-less members keep their vertices in all views, unless no member has both", "statement": "If at least one mesh has a vertex and a face, verts_packed is the concatenation of verts_list (including vertices of face-less meshes) and num_verts_per_mesh has one entry per mesh. If no mesh has both, verts_list still returns all vertices but verts_packed is empty and num_verts_per_mesh has size 0; a batch built from padded tensors with only padding faces is accepted by the constructor but verts_list() raises.", "quantifier": "all batches in which no mesh has both vertices and faces; all others via the history theorem", "why_tests_cant": "the inconsistent state is reached by a class of inputs, not one, and the consistency claim ranges over all other batches", "anchors": ["pytorch3d/structures/meshes.py:Meshes.isempty", "pytorch3d/structures/meshes.py:Meshes._compute_packed", "pytorch3d/structures/meshes.py:Meshes.__init__"]}
{"id": "C10", "title": "submeshes keeps the geometry of the selected faces and nothing else", "statement": "Each produced submesh has one face per selected face, in order, whose corner coordinates are those of the original face; its vertices are exactly the vertices used by the selected faces, each once, in increasing original order.", "quantifier": "all meshes, all selections of faces (repetitions included)", "why_tests_cant": "renumbering through unique/inverse indices has to be right for every selection", "anchors": ["pytorch3d/structures/meshes.py:Meshes.submeshes"]}
{"id": "C11", "title": "join_meshes_as_scene preserves every triangle", "statement": "The single joined mesh has the concatenated vertices, and the corner coordinates of its faces are those of all input faces in order.", "quantifier": "all batches, including batches with empty members", "why_tests_cant": "offset arithmetic must be right for every list of sizes", "anchors": ["pytorch3d/structures/meshes.py:join_meshes_as_scene"]}
{"id": "C12", "title": "Pointclouds: points, normals and features agree in all views whatever the order of access", "statement": "Building Pointclouds from lists (with at least one point; entries of empty clouds may be None), or entirely from padded tensors, then calling accessors, clone, offset_, scale_, update_padded and normal assignment in any order, always gives list, packed and padded views of points, normals and features that describe the same clouds. Exactly these cases deviate: with list points and padded normals (features), calling a padded accessor first makes the object behave for ever as if it had none, while calling normals_list() or a packed accessor first keeps them; with padded points and list normals, normals_padded() is None and clone() drops them; update_padded without new normals before any padded access gives an object whose normals_padded() is None although normals_list() has them; a list batch without any point has no packed or padded normals and an empty first-index tensor.", "quantifier": "all ragged batches, all optional attributes, all finite sequences of calls", "why_tests_cant": "the caches make the result depend on the order of calls; the number of orders is unbounded", "anchors": ["pytorch3d/structures/pointclouds.py:Pointclouds._compute_padded", "pytorch3d/structures/pointclouds.py:Pointclouds._compute_packed", "pytorch3d/structures/pointclouds.py:Pointclouds._parse_auxiliary_input", "pytorch3d/structures/pointclouds.py:Pointclouds.update_padded", "pytorch3d/structures/pointclouds.py:Pointclouds.clone"]}
{"id": "C13", "title": "Pointclouds operations act pointwise on the list view", "statement": "Indexing, split, extend, get_cloud, subsample, inside_box, join_pointclouds_as_batch and join_pointclouds_as_scene return objects whose points, normals and features are the corresponding selection of the clouds of the original, which is unchanged. subsample keeps min(n_i, max_i) points of each cloud: all of them, or those drawn, in the order of the draw, each with its own normal and features. Splitting into non-empty pieces and joining gives the batch back. Exceptions: a selection of zero clouds drops normals and features; joining a batch with normals and one without (or with an empty selection) raises ValueError; get_cloud(N) raises IndexError instead of ValueError.", "quantifier": "all batches, all valid and invalid indices, sizes, limits and draws", "why_tests_cant": "depends on all index forms, sizes and random draws", "anchors": ["pytorch3d/structures/pointclouds.py:Pointclouds.subsample", "pytorch3d/structures/pointclouds.py:Pointclouds.extend", "pytorch3d/structures/pointclouds.py:Pointclouds.__getitem__", "pytorch3d/structures/pointclouds.py:Pointclouds.split", "pytorch3d/structures/pointclouds.py:Pointclouds.inside_box", "pytorch3d/structures/pointclouds.py:join_pointclouds_as_batch", "pytorch3d/structures/pointclouds.py:join_pointclouds_as_scene", "pytorch3d/structures/pointclouds.py:Pointclouds.get_cloud"]}
{"id": "C14", "title": "knn_points returns the K nearest neighbours in order", "statement": "For each query the CPU kernel returns the K points with lexicographically smallest (distance, index) among the first lengths2 points of the second cloud, in ascending order, padded with zeros when fewer exist. With K>1 and return_sorted the wrapper, run on the CPU or on the CUDA kernels, returns K nearest neighbours in ascending order whatever torch.sort does with ties; the distances are the same for both. knn_gather returns the neighbours' features followed by zeros. (K=0 with a non-empty second cloud reads the top of an empty queue.)", "quantifier": "all clouds, lengths, K and norms (1 or 2)", "why_tests_cant": "the bounded heap has to be right for every stream of distances, with ties", "anchors": ["pytorch3d/csrc/knn/knn_cpu.cpp:KNearestNeighborIdxCpu", "pytorch3d/ops/knn.py:knn_points"]}
{"id": "C15", "title": "The MinK structures keep the K smallest items", "statement": "After any sequence of add calls the MinK buffer contains the K smallest keys seen (all if fewer), and sort() puts them in ascending order. (Among equal keys it does not keep the earliest, unlike the CPU queue; K=0 reads an uninitialised key.)", "quantifier": "all sequences of additions, all K >= 1", "why_tests_cant": "stateful max-tracking: the invariant must hold after every history", "anchors": ["pytorch3d/csrc/utils/mink.cuh:MinK", "pytorch3d/csrc/utils/mink.cuh:BubbleSort"]}
{"id": "C16", "title": "ball_query returns the first K in-range neighbours", "statement": "For each query the result is the first K indices (in order) of points at squared distance < radius^2, padded with -1; skip_points_outside_cube never changes the result when radius >= 0. (With a negative radius nothing is found with the option, and |radius| is used without it.) masked_gather returns the points of the row and zeros for -1.", "quantifier": "all clouds, radii, K", "why_tests_cant": "the pruning must be conservative for every geometry", "anchors": ["pytorch3d/csrc/ball_query/ball_query_cpu.cpp:BallQueryCpu"]}
{"id": "C17", "title": "sample_farthest_points is a greedy farthest-point selection of distinct points", "statement": "The first index is the chosen start; every next index maximises the distance to the already chosen set (lowest index on ties); max(1, min(K,length)) indices are returned, padded with -1; they are distinct when the points are distinct; CPU kernel, CUDA block (any number of threads, any reduction order) and naive Python version agree when no squared distance exceeds the initial values; the selection covers the cloud as well as any partition into as many groups. (Coincident points are selected repeatedly; squared distances above 1e10 are clamped on CUDA; for clouds of fewer than 8 points the CUDA kernel is launched with the wrong number of blocks.)", "quantifier": "all clouds, lengths, K and start indices", "why_tests_cant": "greedy invariants hold per history of selections; duplicates need coincident points", "anchors": ["pytorch3d/csrc/sample_farthest_points/sample_farthest_points_cpu.cpp:FarthestPointSamplingCpu", "pytorch3d/ops/sample_farthest_points.py:sample_farthest_points_naive"]}
{"id": "C18", "title": "chamfer_distance is a symmetric non-negative measure that ignores padding", "statement": "chamfer_distance returns, per element, weight times the sum (maximum for 'max') over both directions of the reduced distances from each point to its nearest point, then the batch reduction; with normals on both sides also the same reduction of 1 - (abs) cosine with the normal of the first nearest point. Hence it is non-negative, symmetric in x and y when not single-directional, and depends only on the points of each element up to order: not on padding values, padded size or the way the batch was given. It is zero for equal point sets, and one pair of non-empty clouds has value zero only if they are the same set. A cloud compared with an empty one contributes 0. Weights summing to zero give zero but of shape (N, N) without batch reduction, and a normal loss even without normals. Bad norms, batch sizes, weights and reductions raise ValueError.", "quantifier": "all clouds, lengths, weights", "why_tests_cant": "metric-like laws are universally quantified", "anchors": ["pytorch3d/loss/chamfer.py:chamfer_distance", "pytorch3d/loss/chamfer.py:_chamfer_distance_single_direction"]}
{"id": "C19", "title": "Quaternion/matrix conversions are mutually inverse and respect composition", "statement": "quaternion_to_matrix(q) is a rotation matrix for every non-zero q, is unchanged by scaling q and maps quaternion products to matrix products. matrix_to_quaternion returns, for every rotation matrix, a unit quaternion with non-negative real part whose matrix is the input, whichever of the candidates attaining the maximum is chosen; and matrix_to_quaternion(quaternion_to_matrix(q)) is the standardized q for unit q with non-zero real part, plus or minus q otherwise. random_quaternions are unit with non-negative real part.", "quantifier": "all non-zero quaternions, all rotation matrices", "why_tests_cant": "the choice among four branches depends on the matrix; tests sample random rotations only", "anchors": ["pytorch3d/transforms/rotation_conversions.py:quaternion_to_matrix", "pytorch3d/transforms/rotation_conversions.py:matrix_to_quaternion", "pytorch3d/transforms/rotation_conversions.py:quaternion_multiply"]}
{"id": "C20", "title": "quaternion_apply rotates like the matrix, and quaternion algebra laws hold", "statement": "quaternion_apply(q,p) = |q|^2 quaternion_to_matrix(q) p for non-zero q, so the rotated point for unit q, and composes like the product; raw multiply is associative with identity and multiplicative norm; quaternion_invert is the inverse of unit quaternions and gives the transposed matrix; standardize_quaternion returns q or -q with non-negative real part; quaternion_multiply is the standardized product.", "quantifier": "all quaternions and points", "why_tests_cant": "algebraic identities over all reals", "anchors": ["pytorch3d/transforms/rotation_conversions.py:quaternion_apply", "pytorch3d/transforms/rotation_conversions.py:quaternion_raw_multiply", "pytorch3d/transforms/rotation_conversions.py:standardize_quaternion"]}
{"id": "C21", "title": "Euler-angle and axis-angle matrices are rotations; conversions round-trip, except in the fast matrix_to_axis_angle", "statement": "euler_angles_to_matrix is a rotation for every convention and all angles; exactly the 12 conventions with three axes and no repetition of the middle axis are accepted; matrix_to_euler_angles inverts it on matrices away from gimbal lock and on angles in the principal range, and at gimbal lock the angles depend only on the sum or difference. axis_angle_to_matrix is a rotation and its fast path equals the slow one; conversions between axis-angle, quaternion and matrix round-trip (all rotations; angles below pi respectively 2 pi). The fast matrix_to_axis_angle is exact when no angle is near 0 or pi, but for half turns it normalises over the whole batch (k equal half turns give angle pi/sqrt(k)) and divides 0 by 0 when the axis is orthogonal to x.", "quantifier": "all angles, all conventions", "why_tests_cant": "trigonometric identities for all angles and all 27 convention strings", "anchors": ["pytorch3d/transforms/rotation_conversions.py:euler_angles_to_matrix", "pytorch3d/transforms/rotation_conversions.py:matrix_to_euler_angles", "pytorch3d/transforms/rotation_conversions.py:axis_angle_to_matrix", "pytorch3d/transforms/rotation_conversions.py:matrix_to_axis_angle"]}
{"id": "C22", "title": "The 6D rotation representation yields rotations and round-trips", "statement": "rotation_6d_to_matrix of two vectors is a rotation matrix when the first is at least 1e-12 long and the second at least 1e-12 off its line; a shorter first vector never gives a rotation; adding multiples of the first vector to the second changes nothing; rotation_6d_to_matrix(matrix_to_rotation_6d(R)) = R for rotations R.", "quantifier": "all pairs of linearly independent vectors, all rotation matrices", "why_tests_cant": "Gram-Schmidt identities over all reals", "anchors": ["pytorch3d/transforms/rotation_conversions.py:rotation_6d_to_matrix", "pytorch3d/transforms/rotation_conversions.py:matrix_to_rotation_6d"]}
{"id": "C23", "title": "so3/se3 exponential and logarithm", "statement": "so3_exp_map gives rotations for all inputs, negated input the inverse, and multiples of one axis add their angles; so3_log_map inverts it below angle pi and exp(log(R)) = R for every rotation. hat and hat_inv are inverse on non-empty batches, hat_inv rejects non-skew batches. se3_exp_map gives rigid motions; se3_exp_map(se3_log_map(T)) = T for every rigid motion with the default eps; log(exp(x)) = x for angles below pi with the default eps or angles above both thresholds, but not for any angle above pi (the documentation says 2 pi) and not for other eps, which se3_log_map ignores; above the threshold negating the twist gives the inverse motion. so3_rotation_angle returns the angle; so3_relative_angle is symmetric, zero exactly for equal rotations with cos_bound <= 0, and positive for equal rotations with a positive cos_bound; the extrapolated arccos is strictly decreasing and equals arccos between the bounds.", "quantifier": "all log-rotations and translations", "why_tests_cant": "analytic identities; the small-angle clamp adds a second regime", "anchors": ["pytorch3d/transforms/so3.py:so3_exp_map", "pytorch3d/transforms/so3.py:hat", "pytorch3d/transforms/se3.py:se3_exp_map", "pytorch3d/transforms/se3.py:se3_log_map"]}
{"id": "C24", "title": "Transform3d composition, inversion and point transformation obey the documented laws", "statement": "get_matrix of t.compose(t1, ..., tn) is the broadcast product of the matrices in this order, for arbitrarily nested histories, and fails exactly when batch sizes do not broadcast; grouping does not matter. transform_points of a composition is transforming step by step for all batch and point shapes when no intermediate point is at infinity. inverse(), combined or not, has the inverse matrices for all objects whose matrices are as their class promises; Rotate of a non-orthogonal matrix gets a wrong inverse. stack concatenates; indexing selects the same matrices, except that RotateAxisAngle always raises, and Translate, Scale and Rotate fall back to float32. Translate and Scale broadcast their arguments. With eps the divisor is at least eps in size.", "quantifier": "all transforms, points, and all histories of compose/inverse/stack/clone calls", "why_tests_cant": "the lazy list of pending transforms is built by arbitrary call histories", "anchors": ["pytorch3d/transforms/transform3d.py:Transform3d.compose", "pytorch3d/transforms/transform3d.py:Transform3d.get_matrix", "pytorch3d/transforms/transform3d.py:Transform3d.inverse", "pytorch3d/transforms/transform3d.py:Transform3d.transform_points"]}
{"id": "C25", "title": "transform_normals keeps normals perpendicular to surfaces", "statement": "Whenever transform_normals succeeds, every output normal has with every transformed direction the scalar product that the input normal had with the direction, for all batch shapes; so perpendicularity is kept, also to differences of transformed points for affine transforms. For rigid motions it is the rotation; normal matrices of affine transforms multiply like the transforms.", "quantifier": "all invertible affine transforms, all vectors", "why_tests_cant": "universal algebraic identity", "anchors": ["pytorch3d/transforms/transform3d.py:Transform3d.transform_normals"]}
{"id": "C26", "title": "Projection and unprojection invert each other for all four camera types", "statement": "For all four camera types, in NDC and screen space, with every batch shape: unproject_points applied to (x, y of transform_points(p), depth of p) returns p in world or in view coordinates, for points whose projection is not at infinity, when the calibration matrices are of the documented form and parameters are non-degenerate; with scaled_depth_input the scaled depth of the FoV cameras is used. Keyword arguments are honoured by PerspectiveCameras and OrthographicCameras; FoVPerspectiveCameras.unproject_points ignores them except R and T, which persist in the object; FoVOrthographicCameras cannot unproject an unbatched tensor.", "quantifier": "all camera parameters in the valid range, all points", "why_tests_cant": "rational identities with many parameter modes", "anchors": ["pytorch3d/renderer/cameras.py:FoVPerspectiveCameras.unproject_points", "pytorch3d/renderer/cameras.py:PerspectiveCameras.unproject_points", "pytorch3d/renderer/cameras.py:FoVOrthographicCameras.unproject_points", "pytorch3d/renderer/cameras.py:OrthographicCameras.unproject_points"]}
{"id": "C27", "title": "NDC and screen conversions are inverse and orient the axes as documented", "statement": "get_ndc_to_screen_transform and get_screen_to_ndc_transform are mutually inverse for all positive image sizes; NDC corners of the shorter side +-1 map to image corners with +X left and +Y up; a screen-space camera and the NDC camera with converted focal length and principal point agree on transform_points_ndc and transform_points_screen for every point, and from_ndc unprojection inverts transform_points_ndc; the camera centre maps to the view-space origin; FoV znear/zfar map to depth 0/1 (for FoVOrthographic with scale_z = 1), depth is monotone.", "quantifier": "all image sizes and camera parameters", "why_tests_cant": "identities for every (possibly non-square) image size", "anchors": ["pytorch3d/renderer/cameras.py:get_ndc_to_screen_transform", "pytorch3d/renderer/cameras.py:get_screen_to_ndc_transform", "pytorch3d/renderer/cameras.py:FoVPerspectiveCameras.compute_projection_matrix", "pytorch3d/renderer/cameras.py:CamerasBase.get_camera_center"]}
{"id": "C28", "title": "look_at_view_transform gives a rigid view transform looking at the target", "statement": "look_at_rotation returns a rotation exactly when the camera is at least 1e-5 from the target and the cross product of up with the viewing direction is at least 1e-5 long, or in the narrow band in which the x axis is replaced; for parallel up (e.g. elev = 90 with the default up) it is not a rotation. In every case the camera position maps to the origin; the target maps to the positive z axis at its distance, and up has view x coordinate 0 and non-negative y. Spherical positions have norm |dist| and height dist sin(elev).", "quantifier": "all positions, targets and up vectors", "why_tests_cant": "degenerate directions form a measure-zero set random tests never hit", "anchors": ["pytorch3d/renderer/cameras.py:look_at_rotation", "pytorch3d/renderer/cameras.py:look_at_view_transform"]}
{"id": "C29", "title": "Point rasterization returns the K nearest overlapping points per pixel", "statement": "For each pixel the CPU rasterizer returns the K points with smallest (depth, index) among points with depth >= 0 whose disc of radius r contains the pixel centre strictly, in ascending order, -1 padded; asking for a smaller K returns a prefix. Pixel (yi, xi) has its centre at half the NDC range times 1 - (2 xi + 1)/W, and likewise for y. The GPU kernel returns the same depths, and the same points when depths are distinct (at equal depths it can keep another point).", "quantifier": "all clouds, radii, image sizes, K", "why_tests_cant": "bounded priority queue must be right for every stream of points", "anchors": ["pytorch3d/csrc/rasterize_points/rasterize_points_cpu.cpp:RasterizePointsNaiveCpu"]}
{"id": "C30", "title": "Mesh rasterization returns the K nearest overlapping faces per pixel, independently of the number of threads", "statement": "Without clipped-face neighbours the CPU rasterizer returns for each pixel the K faces of smallest (depth, face) among the faces covering the pixel: every vertex at depth >= 1e-8, projected area above 1e-8 (and counter-clockwise when culling), pixel centre strictly inside the projected triangle or at squared distance below the blur radius, interpolated depth >= 0. The bounding box pre-test never changes the result. Results are ascending and -1 padded. With clipped neighbours each pixel is sorted, holds only covering faces and never a face together with the other half of its split. Every pixel of the image is stored exactly once over all threads, and for every thread count and interleaving the image equals the sequential one.", "quantifier": "all meshes, image sizes, K, thread counts", "why_tests_cant": "ranges over schedules and over all streams of faces", "anchors": ["pytorch3d/csrc/rasterize_meshes/rasterize_meshes_cpu.cpp:RasterizeMeshesNaiveCpu_worker", "pytorch3d/csrc/rasterize_meshes/rasterize_meshes_cpu.cpp:RasterizeMeshesNaiveCpu"]}
{"id": "C31", "title": "Coarse-to-fine rasterization sees every face that the naive one sees, for every schedule", "statement": "For every execution of the coarse kernel (any order of the bit settings, of the atomic allocations and of the stores) no store leaves the buffer; if the candidates of a bin fit into max_elems_per_bin the bin receives each element whose box overlaps it exactly once, otherwise the longest prefix of the arriving chunks that fits. Every element that covers a pixel centre overlaps that pixel's bin, for square and non-square images and bin sizes that do not divide the image; the fine kernel handles each pixel exactly once with its own bin. So, without clipped neighbours and with non-negative point radii, fine rasterization shows at each pixel the K nearest covering elements: the same depths as the naive kernel, and the same result when depths are distinct.", "quantifier": "all elements, image sizes (square or not), bin sizes, chunk schedules", "why_tests_cant": "GPU schedules are non-deterministic; conservativity must hold for every geometry", "anchors": ["pytorch3d/csrc/rasterize_coarse/rasterize_coarse.cu:RasterizeCoarseCudaKernel", "pytorch3d/csrc/rasterize_meshes/rasterize_meshes.cu:RasterizeMeshesFineCudaKernel", "pytorch3d/csrc/rasterize_coarse/bitmask.cuh:BitMask"]}
{"id": "C32", "title": "The GPU top-K face queue keeps the K nearest faces", "statement": "CheckPixelInsideFace keeps the K smallest depths for every insertion order when no clipped neighbours are involved, and the subsequent bubble sort orders them; the GPU pixel shows the same depths as the CPU pixel, and is identical when the depths are distinct. With clipped neighbours, overwriting the current maximum leaves a stale maximum and the queue can evict the wrong face.", "quantifier": "all streams of (depth, face) and all K", "why_tests_cant": "stale-state bug needs a specific history", "anchors": ["pytorch3d/csrc/rasterize_meshes/rasterize_meshes.cu:CheckPixelInsideFace"]}
{"id": "C33", "title": "Barycentric coordinates, perspective correction and clipping", "statement": "For every triangle with area+1e-8 nonzero the barycentric coordinates of p combine the vertices to A/(A+1e-8) times p and sum to A/(A+1e-8), so the deviation from exact barycentric coordinates is exactly that factor; they are affine in p and equivariant under cyclic rotation of the vertices, and all positive for exactly the interior points when the area is positive. Perspective correction yields coordinates summing to 1 that satisfy the projection equation (the point with the corrected coordinates projects to p) and have the same signs, for positive depths and denominator at least 1e-8; clipping returns non-negative coordinates that sum to 1 (when their positive parts sum to at least 1e-5) and is the identity on interior coordinates. Each Backward function is the derivative of its Forward function along every direction of all arguments, away from the clamping thresholds.", "quantifier": "all triangles with non-negligible area, all points", "why_tests_cant": "geometric identities and sign conditions over all reals", "anchors": ["pytorch3d/csrc/utils/geometry_utils.h:BarycentricCoordinatesForward", "pytorch3d/csrc/utils/geometry_utils.h:BarycentricPerspectiveCorrectionForward", "pytorch3d/csrc/utils/geometry_utils.h:BarycentricClipForward"]}
{"id": "C34", "title": "Point-to-segment and point-to-triangle distances are true minima and their gradients are right", "statement": "PointLineDistanceForward (2D and 3D) is the minimum squared distance from p to the segment, and |p - v1|^2 for segments with squared length at most 1e-8; PointTriangleDistanceForward is the minimum over the boundary; PointTriangle3DistanceForward on a triangle with normal longer than 1e-8 and area at least min_triangle_area is the minimum over the boundary when the foot of the perpendicular is outside (and then the minimum over the triangle), and (|n|/(|n|+1e-8))^2 times the minimum over the triangle when it is inside. The Backward functions return the derivative of the forward functions along every direction for segments longer than the threshold with the clamp inactive or strictly active and for triangles with a strictly closest side; for the plane case they differ from the derivative by an exactly stated term of relative size at most 3e-8/|n|^2. For short segments in space the backward pass splits the gradient evenly between the vertices, which is not the derivative of the forward pass.", "quantifier": "all points and segments", "why_tests_cant": "minimality over a continuum; derivative identities at every point", "anchors": ["pytorch3d/csrc/utils/geometry_utils.h:PointLineDistanceForward", "pytorch3d/csrc/utils/geometry_utils.h:PointTriangleDistanceForward", "pytorch3d/csrc/utils/geometry_utils.h:PointLineDistanceBackward"]}
{"id": "C35", "title": "Alpha compositing is a front-to-back over operator", "statement": "The forward kernel equals the front-to-back over operator on the entries with non-negative index; for alphas in [0,1] the weights are non-negative and sum to 1 - prod(1-alpha), so the result is bounded by the feature bound; an opaque entry hides everything behind it. The hand-written feature gradient is the adjoint of the forward; the hand-written alpha gradient of an entry with alpha a differs from the derivative by exactly kEps/(1-a+kEps) times the part of the result behind the entry (so everything behind is lost when a = 1). The CUDA kernel computes the same forward and backward for every order of its atomic additions.", "quantifier": "all alphas, features, K", "why_tests_cant": "telescoping products for every K and every padding pattern", "anchors": ["pytorch3d/csrc/compositing/alpha_composite_cpu.cpp:alphaCompositeCpuForward", "pytorch3d/csrc/compositing/alpha_composite_cpu.cpp:alphaCompositeCpuBackward"]}
{"id": "C36", "title": "Weighted-sum compositors: linearity, normalisation and gradients", "statement": "weighted_sum is the plain sum over valid entries and its backward is its derivative; norm_weighted_sum is a convex combination when the total weight is at least kEps = 1e-4; its backward is the derivative above kEps and, below it, is off by exactly sum g*N/kEps^2; the feature gradient is the adjoint everywhere; CUDA equals CPU.", "quantifier": "all alphas, features, K", "why_tests_cant": "the clamp creates a second regime where the gradient formula is wrong", "anchors": ["pytorch3d/csrc/compositing/norm_weighted_sum_cpu.cpp:weightedSumNormCpuForward", "pytorch3d/csrc/compositing/weighted_sum_cpu.cpp:weightedSumCpuForward"]}
{"id": "C37", "title": "Sigmoid and softmax blending stay in range and ignore padding", "statement": "The silhouette alpha is 1 - prod(1 - sigmoid(-dist/sigma)) over faces with non-negative index: it lies in [0,1), strictly increases with every additional face and with every smaller distance, is permutation invariant; the backward kernel is its derivative; CUDA equals CPU. softmax_rgb_blend returns a weighted average (weights non-negative, total 1) of face colours and background, independent of the constant shift by the maximum, and equals background where no face is hit; hard_rgb_blend returns the nearest face's colour with alpha 1, or background with alpha 0.", "quantifier": "all distances, depths, K, sigma>0, gamma>0", "why_tests_cant": "range and monotonicity for all reals and all K", "anchors": ["pytorch3d/csrc/blending/sigmoid_alpha_blend_cpu.cpp:SigmoidAlphaBlendForwardCpu", "pytorch3d/renderer/blending.py:softmax_rgb_blend"]}
{"id": "C38", "title": "sample_pdf draws stay inside the right bin, are monotone; which thread counts write outside the output", "statement": "For non-negative weights and increasing edges every sample lies in the bin selected by its quantile and in [bins[0], bins[n]]; samples are monotone in the quantile; when the selected bin has weight above eps the sample inverts the cumulative weight exactly; bins of weight 0 are never selected by an interior quantile; CPU binary search and GPU linear scan agree; the Python version stays in range. Each row is processed by exactly one thread and no other row is touched, except when batch_size = 5 and at least 4 threads are available, in which case every schedule makes an out-of-bounds access. On CUDA every (row, sample) slot is visited exactly once.", "quantifier": "all bins, weights, quantiles, batch sizes and thread counts", "why_tests_cant": "the out-of-bounds range needs one particular (batch, threads) pair", "anchors": ["pytorch3d/csrc/sample_pdf/sample_pdf_cpu.cpp:SamplePdfCpu_worker", "pytorch3d/csrc/sample_pdf/sample_pdf_cpu.cpp:SamplePdfCpu"]}
{"id": "C39", "title": "Emission-absorption raymarching weights form a sub-probability whose sum is the opacity", "statement": "For every thickness s >= 1 the weight of point k is d_k times the product of 1 + eps - d_j over j <= k - s. With s = 1 and eps = 0 the weights are non-negative for densities in [0,1] and sum to the returned opacity 1 - prod(1-d), which is in [0,1], monotone and permutation invariant; with eps the sum has an exact closed form between the opacity and (1+eps)^n. For binary densities the weight is 1 exactly on solid points all of whose solid predecessors are closer than s. Thickness 0 raises for n >= 2 and silently renders 0 for n = 1; negative thickness is accepted and attenuates the wrong points.", "quantifier": "all densities, ray lengths, thickness", "why_tests_cant": "telescoping identity for every length", "anchors": ["pytorch3d/renderer/implicit/raymarching.py:EmissionAbsorptionRaymarcher.forward", "pytorch3d/renderer/implicit/raymarching.py:_shifted_cumprod"]}
{"id": "C40", "title": "cubify produces a closed, consistently oriented surface", "statement": "For every batch of occupancy grids with all dimensions at least 2, each output mesh has exactly one face per side triangle between an occupied voxel (value at least the threshold) and an unoccupied or outside neighbour, in voxel order; the corners of a face are the documented positions of the voxel's corners for the chosen alignment, faces point away from their voxel and carry its feature; each directed edge occurs as often as its reverse; vertices are distinct and each is used by a face. A dimension smaller than 2 raises.", "quantifier": "all voxel grids of all sizes and thresholds", "why_tests_cant": "topological closedness over all 2^n occupancy patterns", "anchors": ["pytorch3d/ops/cubify.py:cubify"]}
{"id": "C41", "title": "marching_cubes produces a watertight surface", "statement": "For every scalar field, size of at least 2 and iso level, the triangles of the tables over all cells form an oriented surface: every directed edge occurs at most once, its reverse occurs too unless it lies in the border of the volume, it is closed if the border is on one side, and its vertices are exactly the grid edges with a change of sign, interpolated between the end points. The CUDA path (three kernels, any order of stores, removal of duplicates) returns exactly this mesh; C++ (up to 2^24 grid points) and Python return it when values keep a margin from the iso level. Otherwise C++ and Python also drop proper triangles that follow a degenerate one in the same cell, leaving holes. Local coordinates map the grid box onto [-1,1]^3; with isolevel=None the result is empty exactly for constant volumes.", "quantifier": "all scalar fields, sizes, isolevels", "why_tests_cant": "2^8 cases per cell and all pairs of adjacent cells", "anchors": ["pytorch3d/csrc/marching_cubes/marching_cubes_cpu.cpp:MarchingCubesCpu", "pytorch3d/csrc/marching_cubes/tables.h:_FACE_TABLE", "pytorch3d/csrc/marching_cubes/marching_cubes_utils.h:Cube"]}
{"id": "C42", "title": "SubdivideMeshes treats a batch like its members", "statement": "Subdividing a batch gives for each mesh the same result as subdividing it alone; each face yields four faces preserving orientation, new vertices are edge midpoints, features are subdivided in parallel with vertices; the precomputed and the generic path agree for shared topology.", "quantifier": "all batches of meshes", "why_tests_cant": "index regrouping (stable argsort of interleaved ids) must be right for all sizes", "anchors": ["pytorch3d/ops/subdivide_meshes.py:SubdivideMeshes.subdivide_heterogenerous", "pytorch3d/ops/subdivide_meshes.py:SubdivideMeshes.subdivide_faces"]}
{"id": "C43", "title": "Splatting points into volumes: exact weights, conservation and gradients", "statement": "In trilinear mode a point whose location is inside the grid gives non-negative weights summing to 1 to at most 8 existing voxels, with the location as centre of mass (all points of [-1,1]^3 with align_corners; without, exactly those at least half a voxel from the border); each voxel receives the product of hat kernels. Masked points contribute nothing, point order, GPU launch and atomics order are irrelevant, no write leaves the grid, rescaled features stay within the bounds of the inputs, and the backward pass is the derivative. Locations below 0 are truncated towards zero: they give negative weights to some voxels, also for points inside the cube when align_corners is False.", "quantifier": "all points, grid sizes, modes", "why_tests_cant": "the truncation bug needs coordinates in a thin border layer", "anchors": ["pytorch3d/csrc/points_to_volumes/points_to_volumes_cpu.cpp:PointsToVolumesForwardCpu", "pytorch3d/ops/points_to_volumes.py:_splat_points_to_volumes"]}
{"id": "C44", "title": "Graph Laplacians have the documented structure", "statement": "laplacian: diagonal -1, entries 1/deg(i) on edges, row sums 0 for vertices with a neighbour; cot_laplacian and norm_laplacian are symmetric; cotangent entries are the documented sums.", "quantifier": "all graphs and meshes", "why_tests_cant": "sums over all edges of arbitrary graphs", "anchors": ["pytorch3d/ops/laplacian_matrices.py:laplacian", "pytorch3d/ops/laplacian_matrices.py:cot_laplacian"]}
{"id": "C45", "title": "gather_scatter aggregates neighbour features, in any order, and its backward is the adjoint", "statement": "The output at v is the sum of inputs over edges leaving v (both directions if undirected), independently of the order in which edges are processed; backward is the transpose of forward.", "quantifier": "all graphs, features and all orders of atomic additions", "why_tests_cant": "schedules of atomic adds", "anchors": ["pytorch3d/csrc/gather_scatter/gather_scatter.cu:GatherScatterCudaKernel", "pytorch3d/ops/graph_conv.py:gather_scatter_python"]}
{"id": "C46", "title": "CUDA work distribution visits every item exactly once", "statement": "For every launch configuration, a grid-stride loop visits each index below the total exactly once over all threads; the chunked loops over clouds visit each valid (cloud, point) pair exactly once and no other.", "quantifier": "all grid and block sizes, batch sizes, numbers of points, lengths", "why_tests_cant": "launch configurations and sizes are unbounded; a test runs one", "anchors": ["pytorch3d/csrc/knn/knn.cu:KNearestNeighborKernelV0", "pytorch3d/csrc/ball_query/ball_query.cu:BallQueryKernel", "pytorch3d/csrc/points_to_volumes/points_to_volumes.cu"]}
{"id": "C47", "title": "The backward pass of knn_points and ball_query is the derivative of the returned distances", "statement": "With the chosen indices fixed, grad_p1 and grad_p2 are the exact derivative of sum(grad_dists * dists): for squared distances L(p+u) = L(p) + <grad,u> + L(u) for all displacements u; for L1 distances L(p+u) = L(p) + <grad,u> for displacements that change no sign; padded rows and entries with index -1 contribute nothing; the CUDA kernel makes exactly the same additions, so any order of its atomic additions gives the CPU result.", "quantifier": "all clouds, lengths, K, indices, incoming gradients, displacements", "why_tests_cant": "finite differences sample single directions; the atomic order is nondeterministic", "anchors": ["pytorch3d/csrc/knn/knn_cpu.cpp:KNearestNeighborBackwardCpu", "pytorch3d/csrc/knn/knn.cu:KNearestNeighborBackwardKernel", "pytorch3d/ops/ball_query.py:_ball_query.backward"]}
{"id": "C48", "title": "Point rasterizer gradients are the derivative of the rendered depths and distances", "statement": "RasterizePointsBackward returns, for the fragments chosen by the forward pass, the gradient of the sum of grad_zbuf*z + grad_dists*dist2 with respect to the point positions, for every order of the atomic additions.", "quantifier": "all clouds, all fragment images, all upstream gradients, all accumulation orders", "why_tests_cant": "the accumulated value must be right for every assignment of points to pixels and every interleaving", "anchors": ["pytorch3d/csrc/rasterize_points/rasterize_points_cpu.cpp:RasterizePointsBackwardCpu", "pytorch3d/csrc/rasterize_points/rasterize_points.cu:RasterizePointsBackwardCudaKernel"]}
{"id": "C49", "title": "Texture packing never overlaps and stays inside the sheet", "statement": "pack_rectangles, for at least two rectangles of positive size, places every rectangle (possibly flipped) inside the returned box and no two of them share a cell; fewer than two are refused. pack_unique_rectangles gives all rectangles with one identifier one location, of which exactly the first has is_first, and rectangles with different identifiers share no cell.", "quantifier": "all lists of rectangles", "why_tests_cant": "the skyline bookkeeping has cases that depend on the whole placement history", "anchors": ["pytorch3d/renderer/mesh/utils.py:pack_rectangles", "pytorch3d/renderer/mesh/utils.py:_try_place_rectangle", "pytorch3d/renderer/mesh/utils.py:pack_unique_rectangles"]}
{"id": "C50", "title": "TexturesUV.join_scene does not change what is rendered", "statement": "For at least two non-empty maps, every face of every mesh and all barycentric weights with sum 1 at which the interpolated coordinates lie in the unit square: sampling the joined map through the joined faces_uvs and verts_uvs gives exactly the value of the original map, for every padding mode, both values of align_corners and bilinear sampling (nearest: unless the position is half way between two texels, where the result may differ). The only failure is ZeroDivisionError, which needs align_corners and every map to have a side of one texel; it does occur for two maps of one texel.", "quantifier": "all maps, layouts, flips, coordinates in the unit square", "why_tests_cant": "the layout depends on all map sizes; equality must hold for every layout and every position", "anchors": ["pytorch3d/renderer/mesh/textures.py:TexturesUV.join_scene", "pytorch3d/renderer/mesh/textures.py:TexturesUV._place_map_into_single_map"]}
{"id": "C51", "title": "Clipping at the near plane keeps exactly what is in front of it and fragments are mapped back to the original faces", "statement": "clip_faces with z_clip_value = c (c != 0 if perspective_correct): every clipped triangle is a part of one face that is not culled, lies in z >= c, has the orientation of the face, and convert_clipped_rasterization_to_original_faces turns weights in the clipped triangle into the weights of the same point (in world coordinates) of the original face. Every point of every face that is not culled with z >= c is covered; two triangles made of one face have no inner point in common unless both are degenerate. Faces keep their order, the per-mesh ranges are the images of the original ones, clipped_faces_neighbor_idx links exactly the two triangles made of one face, -1 stays -1, for every order of the scattered stores. The only failure is an IndexError, exactly when something is clipped or culled and the last mesh of the batch has no faces.", "quantifier": "all batches of faces, plane positions, weights", "why_tests_cant": "continuous family of triangles, four cases, and index arithmetic depending on the whole batch", "anchors": ["pytorch3d/renderer/mesh/clip.py:clip_faces", "pytorch3d/renderer/mesh/clip.py:_find_verts_intersecting_clipping_plane", "pytorch3d/renderer/mesh/clip.py:convert_clipped_rasterization_to_original_faces"]}
{"id": "C52", "title": "Frustum culling: which faces cull_to_frustum really drops", "statement": "A face is culled iff vertex 0 has all three of x, y, z below left or above right, or vertex 1 has all three below top or above bottom, or vertex 2 has all three below znear or above zfar (the documentation says: all three vertices beyond one plane). Consequences: a face with all vertices in the frustum is kept; faces that are in view are dropped (a face through the centre of the image); in rasterize_meshes, for faces in front of the camera, the left and top planes never cull anything.", "quantifier": "all faces and frusta", "why_tests_cant": "which faces vanish depends on all nine coordinates and the vertex order", "anchors": ["pytorch3d/renderer/mesh/clip.py:_get_culled_faces", "pytorch3d/renderer/mesh/rasterize_meshes.py:rasterize_meshes"]}
{"id": "C53", "title": "Texture atlases: a fragment reads the texel of the small triangle it is in, and loading agrees with sampling", "statement": "TexturesAtlas.sample_textures: for barycentric coordinates in the triangle the texel read is one of the face's R*R texels whose small triangle contains the point; inside a small triangle it is that texel; its centre (the one used by make_material_atlas) is within 2/(3R) in each coordinate, and sampling at the centre returns the texel. The three vertices read faces_verts_textures_packed. Background is zero, and no index is out of range for coordinates above -1/R. The one exception: lattice points inside the edge from vertex 0 to vertex 1 read the texel mirrored along the edge. make_mesh_texture_atlas gives each face the image of its material, sampled at these centres exactly as TexturesUV (bilinear, align_corners, zero padding) samples the unflipped image, else the diffuse colour, else white, whatever the other faces and the order of the dictionaries; texture_wrap='repeat' shifts a face lying in one period by whole periods (a face crossing a period is not shown on the repeated image, and a coordinate 1 becomes 0 or not depending on the other faces). _bilinear_interpolation_vectorized equals the grid_sample version on [0,1)^2 and raises on u = 1 or v = 1.", "quantifier": "all resolutions, barycentric coordinates, images, materials", "why_tests_cant": "continuous inputs and a different case on each of R*R cells; the failing points have measure zero", "anchors": ["pytorch3d/renderer/mesh/textures.py:TexturesAtlas.sample_textures", "pytorch3d/renderer/mesh/textures.py:TexturesAtlas.faces_verts_textures_packed", "pytorch3d/io/mtl_io.py:make_mesh_texture_atlas", "pytorch3d/io/mtl_io.py:make_material_atlas", "pytorch3d/io/mtl_io.py:_bilinear_interpolation_vectorized"]}
{"id": "C54", "title": "interpolate_face_attributes: CPU and CUDA agree and the backward kernel is the gradient", "statement": "For face indices below F, the value at a fragment is the combination of the three corner values with the barycentric coordinates, zero for background, on the CPU and for every launch and order of stores on CUDA, all addresses being inside the tensors. The backward kernel gives, for every order of the atomic additions, the exact gradient of the loss with respect to barycentric coordinates and attributes. Affine functions are reproduced and values stay between the corner values. TexturesVertex.sample_textures combines the features of the three vertices of the face. On the CPU a face index >= F is an error, and so is a batch without faces even if all fragments are background.", "quantifier": "all sizes, indices, values, launches, schedules", "why_tests_cant": "order of atomic additions and arbitrary real inputs", "anchors": ["pytorch3d/ops/interp_face_attrs.py:interpolate_face_attributes", "pytorch3d/csrc/interp_face_attrs/interp_face_attrs.cu:InterpFaceAttrsForwardKernel", "pytorch3d/csrc/interp_face_attrs/interp_face_attrs.cu:InterpFaceAttrsBackwardKernel", "pytorch3d/renderer/mesh/textures.py:TexturesVertex.sample_textures"]}
{"id": "C55", "title": "TexturesUV with several maps per mesh: which map is sampled", "statement": "With align_corners=True and at least two maps, or with nearest sampling and border padding, sampling with map index m is sampling map m alone. With align_corners=False the map axis is sampled at m + m/(M-1) - 1/2, so bilinear sampling mixes maps. A single map divides by zero. sample_textures uses the map index of the face if all meshes of the batch have the same number of faces; otherwise it indexes the padded table with packed face indices, and if the first mesh has fewer faces than another, the first face of the second mesh always uses map 0. faces_verts_textures_packed uses the right map in all cases.", "quantifier": "all batches, maps, texture coordinates", "why_tests_cant": "wrong only for ragged batches; the map axis is continuous", "anchors": ["pytorch3d/renderer/mesh/textures.py:TexturesUV.sample_textures", "pytorch3d/renderer/mesh/textures.py:TexturesUV.faces_verts_textures_packed"]}
{"id": "C56", "title": "Mesh rasterizer gradients: the CPU backward pass is the derivative, the CUDA kernel agrees except with perspective correction and clipping together", "statement": "For fixed valid pix_to_face, if every fragment is at a point where its outputs are differentiable (no coordinate changing sign, no clamp at its bound, one side strictly closest), grad_face_verts of rasterize_meshes on the CPU is the gradient, in all nine coordinates of all faces, of the pairing of the incoming gradients with zbuf, bary_coords and signed dists computed by the forward pass, summed over all images, pixels and layers. The CUDA kernel computes the same for every launch and order of atomic additions unless perspective_correct and clip_barycentric_coords are both on. With both on it computes, inside the face, the CPU gradient for incoming gradients scaled by (A + eps)/A, and outside the face (the blurred border) something else that is not the derivative.", "quantifier": "all faces, images, incoming gradients, options, launches, schedules", "why_tests_cant": "the gradient checks use few pixels; the wrong argument matters only for pixels outside faces with both options on", "anchors": ["pytorch3d/csrc/rasterize_meshes/rasterize_meshes_cpu.cpp:RasterizeMeshesBackwardCpu", "pytorch3d/csrc/rasterize_meshes/rasterize_meshes.cu:RasterizeMeshesBackwardCudaKernel"]}
{"id": "C57", "title": "Point/mesh distances: closest element of the same batch entry, true gradients, CPU and CUDA agree for batches without empty entries", "statement": "For batches whose first input (points for point-to-face/edge, faces/edges for the reverse) has no empty entries, and distances at most FLT_MAX, the CPU returns for every packed row the least distance to the hulls (points) of the same batch entry and the last index attaining it; rows with no candidates get FLT_MAX and index 0. CUDA, for every launch and for empty entries too, returns the least distance and an index attaining it; both return the same distance, and the same index unless there is a tie. With an empty entry before it, the CPU compares a row with the candidates of the empty entry and returns wrong distances (witness). The backward passes are the derivative of the distances where those are differentiable, up to the error caused by the 1e-8 in the plane normal (zero for edges, boundary closest points, and if only points move), and CUDA computes the same gradients for every order of atomic additions; the same for the array functions. point_mesh_edge_distance and point_mesh_face_distance are the average over the batch of the mean least distance of the points plus the mean least distance of the edges or faces.", "quantifier": "all batches, sizes, launches, schedules, real inputs", "why_tests_cant": "tests use random batches without empty entries and compare to a naive implementation at few sizes; the loop over batch boundaries, the warp reduction and ties need arguments for all sizes", "anchors": ["pytorch3d/csrc/point_mesh/point_mesh_cpu.cpp:HullHullDistanceForwardCpu", "pytorch3d/csrc/point_mesh/point_mesh_cuda.cu:DistanceForwardKernel", "pytorch3d/loss/point_mesh_distance.py:point_mesh_face_distance"]}
{"id": "C58", "title": "Mesh regularization losses: edge length, normal consistency and Laplacian smoothing are the documented batch averages", "statement": "mesh_normal_consistency is, whatever order torch.sort gives equal keys, the average over the batch of the mean, over the pairs of sides of faces of the mesh lying on the same edge (any number of faces per edge), of 1 - cos of the angle between the face normals, the second normal reversed if both faces run through the edge in the same direction; it lies in [0, 2] and is 0 for consistently oriented flat meshes. mesh_edge_loss is the average over the batch of the mean over the distinct undirected edges of (length - target)^2. mesh_laplacian_smoothing is the average over the batch of the mean over the vertices of: the distance to the centroid of the neighbours (uniform); the norm of the cotangent-weighted differences with weights divided by their sum, which is never negative and positive for every vertex in a face with positive opposite side (cot); the cotangent-weighted differences over four times the area of the incident faces (cotcurv). A vertex in no face contributes the norm of its position for cot.", "quantifier": "all batches of meshes, all vertex positions, all valid sort results", "why_tests_cant": "tests compare with loops on a few random meshes; non-manifold edges, inconsistent orientation, unstable sort order and empty meshes need an argument for all meshes", "anchors": ["pytorch3d/loss/mesh_normal_consistency.py:mesh_normal_consistency", "pytorch3d/csrc/mesh_normal_consistency/mesh_normal_consistency_cpu.cpp:MeshNormalConsistencyFindVerticesCpu", "pytorch3d/loss/mesh_edge_loss.py:mesh_edge_loss", "pytorch3d/loss/mesh_laplacian_smoothing.py:mesh_laplacian_smoothing"]}
{"id": "C59", "title": "corresponding_points_alignment returns the least squares similarity transform, for every singular value decomposition", "statement": "Whatever valid decomposition torch.svd returns, in every dimension, R is orthogonal (with determinant 1 unless reflections are allowed) and, without weights or with weights all of whose non-zero values are equal (padding masks), the returned R, T, s minimize the sum of weighted squared distances over all admissible similarity transforms (scale non-negative, 1 unless estimated; with estimate_scale the variance of the points has to reach eps). For all weights: clouds related by an admissible transform are mapped exactly onto each other, T is optimal for the returned R and s, and R, s minimize the error of the centred points with squared weights; the weighted sum itself is not minimized in general. In a batch the result of a cloud is that of its own points alone, independent of padding and of the other clouds.", "quantifier": "all point clouds, dimensions, weights, and all singular value decompositions", "why_tests_cant": "tests recover known transforms of random clouds; optimality among all transforms, repeated or zero singular values and reflections need a proof", "anchors": ["pytorch3d/ops/points_alignment.py:corresponding_points_alignment", "pytorch3d/ops/points_alignment.py:_apply_similarity_transform", "pytorch3d/ops/utils.py:wmean"]}
{"id": "C60", "title": "iterative_closest_point: decreasing error, convergence, and the padding of equally sized pairs", "statement": "The rmse of each pair never increases from one iteration to the next; the result is that of the first iteration whose relative decrease is at most the threshold for all pairs, or of max_iterations iterations; the returned points are the initial points under the returned transform, the last of the history, which is admissible. With a threshold >= 0 the loop stops after at most (number of neighbour assignments) + 2 iterations unless some rmse becomes exactly zero; once it is exactly zero (for example a cloud registered with itself) convergence is never reported for thresholds below one, since 0/0 fails the comparison. If some pair has clouds of different sizes or no cloud is padded, padding has no influence; for batches of padded clouds whose pairs all have equal sizes the padding rows take part as points at the origin and the transform is wrong.", "quantifier": "all batches, all numbers of points, all iterations, all tie-breaks of the nearest neighbour search and all singular value decompositions", "why_tests_cant": "tests run a few iterations on random clouds; monotonicity and termination concern all runs, and the equal-size padding case is not tested", "anchors": ["pytorch3d/ops/points_alignment.py:iterative_closest_point"]}
{"id": "C61", "title": "Conversion of OpenCV cameras: the same pixels, round trips, and pulsar", "statement": "cameras_from_opencv_projection gives a camera whose screen coordinates of every point with non-zero depth are the OpenCV pixel coordinates, for every image size, rotation, translation, focal lengths and principal point (without skew); opencv_from_cameras_projection inverts it and is inverted by it for cameras defined in NDC space. The skew entry of the camera matrix is ignored, and cameras in screen space (in_ndc=False) are converted as if they were defined in NDC space, giving a different projection. For pulsar_from_opencv_projection the returned position is the centre of projection, the 6d rotation decodes to the transposed OpenCV rotation, and focal length divided by sensor width times image width is the mean of the two OpenCV focal lengths.", "quantifier": "all rotations, translations, intrinsics, image sizes and points", "why_tests_cant": "tests compare a few random cameras up to a tolerance; the equality for all cameras and the lost cases need a proof", "anchors": ["pytorch3d/renderer/camera_conversions.py:_cameras_from_opencv_projection", "pytorch3d/renderer/camera_conversions.py:_opencv_from_cameras_projection", "pytorch3d/renderer/camera_conversions.py:_pulsar_from_opencv_projection"]}
{"id": "C62", "title": "Volumes: list round trip, indexing, coordinates of the voxels, and sampling on rays", "statement": "Grids of any sizes given as lists come back unchanged from densities_list and features_list, and are zero padded. With align_corners, voxel k of S along an axis is at -1 + 2k/(S-1) in local and at (k - (S-1)/2) voxel_size - volume_translation in world coordinates, for batches of volumes of any sizes, also after indexing; without align_corners (volumes of one size) it is at -1 + (2k+1)/S, and the world distance of neighbouring voxels is voxel_size (S-1)/S. world_to_local_coords and local_to_world_coords are mutually inverse. For volumes of one size VolumeSampler returns on every ray the trilinear interpolation of the voxels at their world positions, in particular the value of a voxel at its centre for all modes, paddings and both values of align_corners; trilinear add_points is the transpose of sampling. Exceptions, all proved: a dimension with one voxel has no finite coordinates; __getitem__ resets align_corners to True; update_padded raises a ValueError for every batch with padding; VolumeSampler and (without align_corners) the coordinate grid are wrong for padded volumes; a volume_translation of one element is an IndexError.", "quantifier": "all batches, sizes, voxel sizes, translations, rays and points", "why_tests_cant": "tests use one or two random sizes; the interaction of padding, align_corners and indexing is not covered", "anchors": ["pytorch3d/structures/volumes.py:Volumes", "pytorch3d/structures/volumes.py:VolumeLocator", "pytorch3d/renderer/implicit/renderer.py:VolumeSampler"]}
{"id": "C63", "title": "Ray samplers: rays run through what the cameras see, at the depths requested, for the pixels selected", "statement": "For every batch of valid cameras (perspective, orthographic, field of view, in NDC or screen space) and every image point, the ray of the samplers consists of the points that the camera projects to this image point: without unit_directions the point origin + z direction has depth z and transform_points_ndc maps it to the image point, and the origin of a perspective camera is its centre; with unit_directions the direction has length 1, lengths are distances from the origin and the depth is length times the cosine of the angle to the optical axis (not the z-coordinate that the documentation of RayBundle promises). Depths are evenly spaced from min_depth to max_depth; stratified ones are sorted, within the bounds, one in each stratum. NDCMultinomialRaysampler uses the pixel centres of the rasterizers, for every image size. forward returns the whole grid; or n rays per image through pixels of positive mask weight, distinct if there are n of them; or, for n_rays_total, one ray per sampled camera index, grouped by camera, where the grouping, counts and cameras agree. MonteCarloRaysampler stays within its bounds. Both numbers of rays given are a ValueError (0 counts as not given). More rays per image than pixels raise an error although the documentation promises sampling with replacement. Indexing cameras selects the cameras at these indices.", "quantifier": "all cameras, image sizes, masks, numbers of rays and all outcomes of the random numbers that torch guarantees", "why_tests_cant": "tests use a few sizes and random draws; the agreement of pixel centres, packing and camera indices is not checked for all of them", "anchors": ["pytorch3d/renderer/implicit/raysampling.py:MultinomialRaysampler", "pytorch3d/renderer/implicit/raysampling.py:NDCMultinomialRaysampler", "pytorch3d/renderer/implicit/raysampling.py:MonteCarloRaysampler", "pytorch3d/renderer/implicit/raysampling.py:_safe_multinomial", "pytorch3d/renderer/cameras.py:CamerasBase.__getitem__"]}
{"id": "C64", "title": "OBJ files: saving and loading returns the mesh, to the decimal places written", "statement": "For every mesh with vertices or faces and indices that are not negative, with or without normals (with their face indices) and textures (texture coordinates, their face indices and an image), and every decimal_places: save_obj succeeds, and load_obj on the files that it writes returns the same faces, the same normal and texture indices (rows of -1 if there are none), material index 0 (or -1), the vertices, normals and texture coordinates rounded to the decimal places (6 if not given) with ties to even, and the image with every value x in [0, 1] replaced by floor(255 x)/255. Hence every coordinate is within half a unit of the last place, and coordinates of at most half a unit can become 0. A face line with n entries is read as its n - 2 fan triangles. Positive indices count from one, negative ones from the end of the whole file (also if vertices follow), 0 is accepted as the first element. Saving normals without their face indices is a ValueError; texture coordinates without an image are dropped silently.", "quantifier": "all meshes, decimal places, file stems without line feed or leading white space; all readings of decimals as floats", "why_tests_cant": "tests compare a few literal files; the inverse relation of writer and parser over all combinations of optional data is not checked", "anchors": ["pytorch3d/io/obj_io.py:save_obj", "pytorch3d/io/obj_io.py:load_obj", "pytorch3d/io/obj_io.py:_parse_face", "pytorch3d/io/obj_io.py:_format_faces_indices", "pytorch3d/io/mtl_io.py:load_mtl"]}
{"id": "C65", "title": "OFF files: round trip, polygons, comments", "statement": "For every mesh with a vertex, with indices up to 2^24 and optional vertex or face colours (3 or 4 channels): what save writes, load returns: the same faces, vertices and vertex colours rounded to the decimal places (6 by default), face colours always to 6. Coordinates that are float32 numbers whose last bit is at least 8/3 units of the last decimal place (for 6 places all float32 numbers from 32 up in absolute value, and 0) come back exactly, also from OBJ files. Reading returns for faces of any sizes the fan triangles of each face with the colour of its face; in file order unless all faces have the same size above 3. In a file that ends with data, comments and empty lines make no difference. A mesh without vertices is saved but cannot be loaded; a file without a meaningful line is never finished; a comment at the end is an error; indices are read as float32, so 16777217 becomes 16777216; whether colours are divided by 255 depends only on the number of decimal points in the first line.", "quantifier": "all meshes, colours, decimal places, polygon sizes and positions of comments", "why_tests_cant": "tests use a handful of literal files; the inverse relation and the triangle/colour pairing are not checked in general", "anchors": ["pytorch3d/io/off_io.py:_load_off_stream", "pytorch3d/io/off_io.py:_read_faces_lump", "pytorch3d/io/off_io.py:_save_off", "pytorch3d/io/obj_io.py:save_obj"]}
{"id": "C66", "title": "PLY files: readers, binary and ascii round trips, colours", "statement": "Every binary PLY file, of either byte order and on a machine of either byte order, whose header is followed by the encoded tables of its elements (numbers of any of the eight types, lists of any lengths, any mixture), is loaded: vertices, normals, colours and texture coordinates are the columns with their names, found by name in any order beside any other columns, and the faces are the fan triangles of the polygons, in file order unless all have the same size above 3; the same for ascii files with any spelling of the numbers and any spacing. What save writes, load returns: for binary files the same bits of all coordinates, normals and float colours and the same faces; for ascii files the numbers rounded to the decimal places and then to float32. Colours saved as bytes come back within half a step of 1/255 (plus 2^-22), and bytes are stable under loading and saving. Files that end inside a table, binary files with more than blanks after the tables, ascii rows with too many words and property lines without 3 or 5 words are rejected; numbers converted to integers lose their fraction; colours are divided by 255 exactly if all colour columns are bytes. But: three columns of one type are taken as x, y, z in file order whatever their names; without vertices, faces and normals are lost; an empty list of faces becomes None; a file cut off before end_header is read forever; a number of type float32 beside a list must be an integer.", "quantifier": "all headers, tables, byte orders, types, polygon sizes, spellings and decimal places", "why_tests_cant": "tests read a few literal files on a little-endian machine; no test covers both byte orders, all reader paths and the inverse relation", "anchors": ["pytorch3d/io/ply_io.py:_PlyHeader", "pytorch3d/io/ply_io.py:_read_ply_element_binary", "pytorch3d/io/ply_io.py:_read_ply_element_ascii", "pytorch3d/io/ply_io.py:_get_verts", "pytorch3d/io/ply_io.py:_load_ply", "pytorch3d/io/ply_io.py:_save_ply"]}
{"id": "C67", "title": "TensorProperties: construction, element access, clone, gather", "statement": "A TensorProperties object built from any mixture of numbers, lists, tensors and strings has as batch size the largest of their first dimensions, every tensor property is given once per element (single values repeated), and a property of another size is a ValueError. obj[i].name reads exactly element i (negative indices counted from the end, others an IndexError), obj[i:j].name the elements of the slice, for every start, stop and step. Assignment changes the elements of the index and nothing else if the property was given with one value per element; if it was given once and repeated, obj[i].name = v changes every element (the repeated value is one cell), and assigning a slice of two or more elements is a RuntimeError. A tensor passed by the caller is not copied: assignment changes it. clone() has equal properties and shares nothing: no later assignment on either object is seen by the other. gather_props gives element b of every tensor property of more than one row the value of row idx[b], leaves the others, and does not change the length of the object; an index outside is a RuntimeError.", "quantifier": "all properties, batch sizes, indices, slices, memory states and sequences of allocations", "why_tests_cant": "tests use small literal batches; aliasing through expanded views and caller tensors is visible only by reasoning about memory", "anchors": ["pytorch3d/renderer/utils.py:TensorAccessor", "pytorch3d/renderer/utils.py:TensorProperties", "pytorch3d/renderer/utils.py:format_tensor", "pytorch3d/renderer/utils.py:convert_to_tensors_and_broadcast"]}
{"id": "C68", "title": "Lighting and shading: Phong, flat, Gouraud, batches of lights, materials and cameras", "statement": "For every batch, image size and number of faces per pixel, with directional, point or ambient lights and camera centres given once or once per mesh, phong_shading and flat_shading return at every fragment exactly (ambient_m ambient_l + diffuse_m lambert(n, l) diffuse_l) texel + specular_m gloss^shininess specular_l with the light and camera of the image of the fragment, at the point and normal interpolated with the barycentric coordinates (Phong) or at the centre of the face with its normal (flat); Gouraud shading returns the interpolation of these colours at the vertices, with light, camera and material of the mesh of each vertex. The factors are what they should be: lambert is the cosine of the angle between normal and light, 0 from behind, independent of the lengths; gloss is the cosine between viewer and mirror direction, at most 1, 0 if the light is behind, symmetric in light and viewer; the colours do not change if scene, lights and cameras are moved together; colours of lights, materials and texels within [0, 1] give results within [0, 3]; fragments without a face get ambient light only. But diffuse and specular colours of a batch of materials are matched with the faces of a pixel and not with the images in Phong and flat shading: with one face per pixel and N materials the result has N colours per pixel, of which the first (the one displayed) uses material 0 in every image; with K faces, K different from 1 and N, it is an error. With shininess 0 empty and back-facing fragments get the full specular colour. A highlight can be seen by a viewer behind the surface. Vertex colours and lights with one channel give V channels in Gouraud shading.", "quantifier": "all batches, shapes, lights, materials, fragments and meshes", "why_tests_cant": "tests compare single lights and shapes with a few literal numbers; no test uses a batch of materials, checks rigid motions, or relates interpolation, lighting and batching for all inputs", "anchors": ["pytorch3d/renderer/lighting.py:diffuse", "pytorch3d/renderer/lighting.py:specular", "pytorch3d/renderer/lighting.py:PointLights", "pytorch3d/renderer/mesh/shading.py:_apply_lighting", "pytorch3d/renderer/mesh/shading.py:phong_shading", "pytorch3d/renderer/mesh/shading.py:flat_shading", "pytorch3d/renderer/mesh/shading.py:gouraud_shading"]}
{"id": "C69", "title": "Depth shaders: hard and soft depth, background, batches of zfar", "statement": "SoftDepthShader gives at every pixel the depth obtained by letting the fragments, in order, take their probability of what is left and the background the rest: a convex combination of the depths of the faces of the pixel and zfar (never outside their range), zfar itself for a pixel without faces. HardDepthShader gives the depth of the first face and zfar for background pixels. Both hold if zfar is a number or one camera's. With the zfar of a batch of two or more cameras (a tensor property of FoV cameras) SoftDepthShader is an error for every image, and HardDepthShader is an error unless the number of background pixels of the whole batch equals the number of cameras, in which case the values are given out in the order of the pixels, whichever image they belong to.", "quantifier": "all fragments, depths, numbers of faces, cameras and images", "why_tests_cant": "tests render one camera; the batched zfar is never used and the weights are compared with one literal image", "anchors": ["pytorch3d/renderer/mesh/shader.py:HardDepthShader", "pytorch3d/renderer/mesh/shader.py:SoftDepthShader"]}
{"id": "C70", "title": "Face areas and normals: what the backward pass returns", "statement": "For every mesh whose faces all have twice their area above 1e-6, every gradient of areas and normals and every motion of the vertices, the gradient returned by the backward pass of mesh_face_areas_normals (CPU and CUDA, in any order of the additions) is the derivative of the loss along the motion, except for one term: in the gradient of the z coordinate of the second vertex of each face the code has cx where cy belongs, so that (cx - cy)(bx cy - by cx)/|c|^3 times the gradient of the y component of the normal is missing. Losses of areas, and of normals without y component, have exact gradients; for the normal of the triangle 0, (1/2, -2, 1/2), (1, 0, -1) the returned value is 7/27 and the derivative 8/27.", "quantifier": "all meshes, gradients, motions and orders of the faces", "why_tests_cant": "the tests compare the C++ gradient with another implementation for one random mesh at a loose tolerance; only a derivative for all inputs shows which term is wrong", "anchors": ["pytorch3d/csrc/face_areas_normals/face_areas_normals_cpu.cpp:FaceAreasNormalsBackwardCpu", "pytorch3d/csrc/face_areas_normals/face_areas_normals.cu:FaceAreasNormalsBackwardKernel", "pytorch3d/ops/mesh_face_areas_normals.py:_MeshFaceAreasNormals"]}
{"id": "C71", "title": "sample_points_from_meshes: uniform on the surface, right mesh, empty meshes", "statement": "For every batch of meshes, empty ones among them, row i of the result has points of mesh i only: each lies in a face of positive area of that mesh, at barycentric coordinates that are not negative and sum to one, and its normal is perpendicular to this face and of length one (unless the area is below 2^-53); rows of empty meshes are zero; a batch of empty meshes is an error. The barycentric coordinates made from two uniform numbers are uniformly distributed: every measurable part of the triangle has its area as probability, and so, with faces taken in proportion to their areas, every part of the surface has the probability area divided by total area. Textures: the sampled faces of row i are faces of mesh i if no mesh is empty; if one is, asking for textures is an error (the documentation says zeros).", "quantifier": "all batches, random numbers, generators, measurable parts of the surface", "why_tests_cant": "a test can only look at statistics of finitely many samples; the tests check that samples lie on two fixed surfaces", "anchors": ["pytorch3d/ops/sample_points_from_meshes.py:sample_points_from_meshes", "pytorch3d/ops/sample_points_from_meshes.py:_rand_barycentric_coords"]}
{"id": "C72", "title": "symeig3x3: order, trace, orthonormal frames, characteristic polynomial, small matrices", "statement": "In exact arithmetic, for every 3x3 matrix the eigenvalues of symeig3x3 are ascending and add up to the trace, and the eigenvectors are orthonormal columns, of determinant 1 if the lower gap between the eigenvalues is the larger one and -1 otherwise. For a symmetric matrix with p1 (half the squares off the diagonal) at least eps, the values of the trigonometric formula make the characteristic polynomial up to a constant of at most 2 p^3 eps, and exactly if r is not clamped, that is if no two eigenvalues nearly coincide; what is returned differs from them by exp(-(p1/6eps)^2) times the difference to the sorted diagonal; for a diagonal matrix it is the sorted diagonal. The first eigenvector solves the eigenvalue equation up to eps (A - alpha) s / N, with signs s and N the largest cross product of two rows (at least its unregularised length less sqrt(3) eps). But the function is not homogeneous: as a matrix is scaled down its relative eigenvalues tend to its sorted diagonal whatever its eigenvalues are, and for diag(a, a, 0) the eigenvector of 0 is returned as (-eps, -eps, a^2 + eps) normalised, more than 35 degrees off when a^2 <= eps.", "quantifier": "all 3x3 matrices, all eps from 1e-12 to 1, all scales", "why_tests_cant": "tests compare with torch on random matrices of unit scale at a tolerance; orthonormality and order for all inputs and the behaviour at small scales are statements about all matrices", "anchors": ["pytorch3d/common/workaround/symeig3x3.py:_SymEig3x3", "pytorch3d/common/workaround/symeig3x3.py:symeig3x3"]}
{"id": "C73", "title": "Point cloud normals: neighbourhoods, plane fit, orientation, translation, small clouds", "statement": "estimate_pointcloud_normals and estimate_pointcloud_local_coord_frames raise a ValueError exactly if some cloud has not more than neighborhood_size points. Otherwise each neighbourhood has exactly K points of the cloud, none left out is nearer, and the result does not depend on a translation of the cloud or its padding. With an exact eigenvector routine (torch.linalg.eigh) the normal minimises, over all unit vectors, the mean squared distance of the neighbours to the plane through their mean, this minimum is the first curvature, and the last column maximises it. With disambiguate_directions every frame is orthonormal and left-handed (n, n x z, z), for every cloud and both routines; each direction is the eigenvector or its opposite, with at least half of the neighbours in front or fewer than half behind, and it is independent of the sign of the eigenvector exactly if one and only one side holds half of the neighbours (with an odd neighborhood_size and the point itself among the neighbours it need not be). With the default routine the normal of four neighbours at the corners of a horizontal square of side 2h with h^4 <= 2^-23 (h below 1.8 cm for metres) has squared vertical component at most 2/3.", "quantifier": "all clouds, neighbourhood sizes, translations, paddings, choices of knn_points among equal distances", "why_tests_cant": "the tests use one sphere of radius one with a tolerance on the angle; minimality over all directions, independence of signs and what happens at other scales are statements about all clouds", "anchors": ["pytorch3d/ops/points_normals.py:estimate_pointcloud_normals", "pytorch3d/ops/points_normals.py:estimate_pointcloud_local_coord_frames", "pytorch3d/ops/points_normals.py:_disambiguate_vector_directions", "pytorch3d/ops/utils.py:get_point_covariances"]}
{"id": "C74", "title": "Vertex and atlas textures: features follow the meshes through any program, what Meshes checks", "statement": "For TexturesVertex and TexturesAtlas held by Meshes with at least one valid mesh: any program of views, indexing (int, list, mask, slice), extend, clone, join_meshes_as_batch, join_meshes_as_scene and submeshes that makes sense for the meshes alone runs without an exception, and in every batch it makes the texture gives each vertex (or face) the feature it had at the start: the list view holds the features mesh by mesh, the packed view their concatenation and the rows of the padded view begin with them, whichever views were computed before. Textures made from a fitting list or from a padded tensor of the width of the longest mesh start out so. But Meshes accepts a texture exactly if the number of meshes and the largest number of elements agree, so sizes in another order are accepted and colour the wrong vertices; a padded texture asked for its list view before it is given to Meshes keeps its padding in the packed features; a texture indexed with an int on its own cannot be extended, indexed again or (vertex) cloned; in a batch without a valid mesh indexing with an int raises, atlas_list of a padded atlas raises, and joining such a mesh with a padded vertex texture to another loses its features without an exception; TexturesVertex([]) is rejected for an empty batch.", "quantifier": "all batches, features, programs of operations and orders of computing views", "why_tests_cant": "the tests call one operation at a time on textures whose views have not been computed in other orders; that features stay with their vertices through every composition and caching order is a statement about all programs", "anchors": ["pytorch3d/renderer/mesh/textures.py:TexturesVertex", "pytorch3d/renderer/mesh/textures.py:TexturesAtlas", "pytorch3d/renderer/mesh/textures.py:TexturesBase", "pytorch3d/structures/meshes.py:Meshes", "pytorch3d/structures/meshes.py:join_meshes_as_batch", "pytorch3d/structures/meshes.py:join_meshes_as_scene"]}
{"id": "C75", "title": "ico_sphere and torus: closed, outward oriented surfaces at every level and size", "statement": "ico_sphere(level) for every level \u2265 0 has 10\u00b74^level + 2 vertices, 20\u00b74^level faces and 30\u00b74^level edges and is a closed oriented surface: every directed edge lies in exactly one face, its reverse in exactly one other face, no two faces have the same vertices, every face is seen counter-clockwise from outside, and no vertex is NaN. From level 1 on every vertex has length one; at level 0 the vertices are the constants of the source, whose squared length is 1.00005098. The faces of a level are the subdivided faces of the level before and there is one new vertex for every edge. A negative level raises ValueError. torus(r, R, sides, rings) for sides, rings \u2265 3 is a closed oriented surface with sides\u00b7rings vertices, twice as many faces and three times as many edges, its vertices lie on the torus with radii r and R, and for 0 < r < R its faces are oriented outward with respect to the tube; with two sides or two rings some directed edge lies in two faces; exactly sides or rings that are not positive raise ValueError.", "quantifier": "all levels, radii, numbers of sides and rings", "why_tests_cant": "the tests compare level 0 to stored numbers and one torus to stored numbers; the statement is by induction on the level and over all grid sizes", "anchors": ["pytorch3d/utils/ico_sphere.py:ico_sphere", "pytorch3d/utils/torus.py:torus", "pytorch3d/ops/subdivide_meshes.py:SubdivideMeshes"]}
{"id": "C76", "title": "Taubin smoothing: meshes of a batch do not mix, rigid motions, planes, and what happens to vertices without faces", "statement": "For every batch whose faces refer to its vertices, taubin_smoothing gives each mesh exactly what it gives when called on that mesh alone, and keeps the faces. With at least one iteration and positive eps a vertex of the result is a number exactly if the vertex belongs to some face; every vertex without a face becomes NaN, whatever the other vertices are, and NaN never spreads to other vertices. One step is (1 - c) v + c L v / (row sums of L) with L the matrix of norm_laplacian. Smoothing commutes with every rigid motion and reflection; if all vertices lie in a plane so do the smoothed ones; with both factors in [0, 1] every half space that contains the vertices contains the smoothed ones. No iterations give the vertices back.", "quantifier": "all batches, factors, numbers of iterations, rigid motions, planes and half spaces", "why_tests_cant": "a test smooths one mesh and checks that the normals have become smoother; it cannot show equivariance under all motions or that every vertex without a face is lost", "anchors": ["pytorch3d/ops/mesh_filtering.py:taubin_smoothing", "pytorch3d/ops/laplacian_matrices.py:norm_laplacian"]}
{"id": "C77", "title": "vert_align: every vertex gets the features of its own image at its own place", "statement": "vert_align(feats, verts) for a batch of N images and N meshes, clouds or rows of a tensor: element b of the result holds, for every vertex of element b in order, the channels of all feature maps of image b at (x, y), concatenated; z is not read. With align_corners=True the vertex at (2j/(W-1) - 1, 2i/(H-1) - 1) gets exactly pixel (i, j), with align_corners=False the vertex at ((2j+1)/W - 1, (2i+1)/H - 1) does. With border or reflection padding every feature lies between the smallest and the largest pixel of its channel; with zero padding vertices more than one pixel outside the image get zero. For Meshes return_packed=True gives the features of verts_packed in that order. For Pointclouds it does not: the padding stays, the result has N\u00b7max(P) rows, which is the number of points only if all clouds have the same size. The padding rows of the padded result are not zero but the features at the centre of the image. The call fails exactly if there are no feature maps, one of them is not of rank four, a batch size differs from N or the vertices are not of the three kinds.", "quantifier": "all batches, image sizes, modes and vertices", "why_tests_cant": "tests use random features of a fixed size and compare to grid_sample itself; the rows of packed clouds and of the padding are never looked at", "anchors": ["pytorch3d/ops/vert_align.py:vert_align"]}
{"id": "C78", "title": "Splatter blending: the colour formula, its range, empty pixels and image borders, and whose depths decide what is in front", "statement": "SplatterBlender.forward with positive sigma returns for every pixel the composition, over the background colour with alpha 0, of three sums of the fragments of the 3 by 3 neighbourhood: those behind the surface of the pixel, on it and in front of it, each with the Gaussian weights of the distance of the fragment to the centre of the pixel (normalised to sum 1.05) and divided by its weight if that exceeds one. If all colours lie in [0, 1] so do all channels and alpha of the result. A pixel without a fragment in its neighbourhood has the background colour and alpha 0. With one layer, a covered image of one colour keeps it with alpha 1 inside, but at the image border the weights of the missing neighbours are lost: for sigma = 0.5 the corner is not opaque and mixes with the background. With several layers the layer of the neighbour at (dh, dw) that counts as the surface is chosen from the depths of the neighbour at (dw, dh), not its own (outside the image: depth zero), so an occluding fragment to the right of a pixel is dimmed for every sigma; with one layer the choice does not matter. sigma \u2264 0 raises. A SplatterPhongShader that has rendered once fails for every other batch or image size and for fewer layers, and with more layers ignores those beyond the number of its first call.", "quantifier": "all images, layer counts, sigma, colours and positions of fragments", "why_tests_cant": "the tests check the occlusion layers and the shifted splats separately, against stored tensors; that the two enumerate the neighbours in different orders shows only in the composition, and not for symmetric images", "anchors": ["pytorch3d/renderer/splatter_blend.py:SplatterBlender.forward", "pytorch3d/renderer/splatter_blend.py:_compute_occlusion_layers", "pytorch3d/renderer/splatter_blend.py:_offset_splats", "pytorch3d/renderer/mesh/shader.py:SplatterPhongShader"]}
{"id": "C79", "title": "The IO object: which format reads and writes a file, and which textures survive a round trip", "statement": "IO().load_mesh and load_pointcloud try the registered formats in order, the newest registration first, and return the result of the first that does not answer None; if all do, ValueError is raised; exceptions of a format are passed on. save_mesh and save_pointcloud likewise write with the first format that accepts the file. With the default formats exactly one format accepts a file name, decided by its lower or upper case ending: OBJ, OFF, PLY for meshes, and only PLY for point clouds (the documentation's example of saving a cloud as .obj raises ValueError); open streams are always treated as PLY; a file called just `.obj` is recognised when given as a string, not as a Path. A mesh saved under a name and loaded from it goes through the same format. include_textures of save_mesh has no effect. Textures survive exactly for: UV textures in OBJ, colours of vertices with three or four channels or one colour for each face in OFF (other channel counts raise), three-channel vertex colours in PLY; all others are silently dropped. The OFF reader returns textures even with include_textures=False.", "quantifier": "all lists of registered formats, file names, streams and kinds of textures", "why_tests_cant": "tests load and save single files of every format; the ordering of registrations, the precise set of recognised names and the lost textures are never enumerated", "anchors": ["pytorch3d/io/pluggable.py:IO.load_mesh", "pytorch3d/io/pluggable.py:IO.save_mesh", "pytorch3d/io/pluggable.py:IO.register_meshes_format", "pytorch3d/io/pluggable_formats.py:endswith"]}
{"id": "C80", "title": "Rendering of point clouds: colour of a pixel, background, radii, image and bin sizes", "statement": "PointsRenderer with points_per_pixel = K > 0 gives every pixel the composition, front to back (AlphaCompositor) or normalised (NormWeightedCompositor), of the features of exactly the K nearest points in front of the camera whose disc contains the pixel centre, with opacity 1 - d\u00b2/r\u00b2. With one radius all opacities lie in (0, 1]; alpha compositing then keeps a channel with values in [lo, hi] within [(1-t) lo, (1-t) hi], t < 1 the light that passes, and the normalised compositor within [lo, hi] if the opacities sum to at least eps. A pixel without such a point has the background colour, or 0 without one; a pixel with one does not depend on the background colour at all, the light that passes is black. Background colours are a number, a vector with one entry per channel, or one without the last, which becomes 1; all others raise. A radius tensor is accepted exactly with shape (N, max P) (or (P) for one cloud) and gives every point its own entry, an int radius raises; but the weights of the renderer divide by that tensor as if its axes were the image rows and columns, so rendering with it raises unless the shapes happen to broadcast. raster_settings given to forward are not used for the weights, which become negative for a larger radius. parse_image_size accepts pairs of positive integers and any single number, also 0 or negative ones; wrong lists raise TypeError instead of ValueError. The default bin size never exceeds the limit on the number of bins, for any image size; a given one b is refused exactly if 21 b < max(H, W).", "quantifier": "all clouds, radii, features, K, image sizes and background colours", "why_tests_cant": "tests compare rendered images with stored ones for one radius; the arguments here pass through four functions with their own conventions", "anchors": ["pytorch3d/renderer/points/renderer.py:PointsRenderer.forward", "pytorch3d/renderer/points/compositor.py:_add_background_color_to_images", "pytorch3d/renderer/points/rasterize_points.py:_format_radius", "pytorch3d/renderer/points/rasterize_points.py:rasterize_points", "pytorch3d/renderer/utils.py:parse_image_size"]}
{"id": "C81", "title": "Alignment of cameras: exact recovery, least squares, and which inputs give reflections or collapse", "statement": "corresponding_cameras_alignment(src, tgt) raises unless both batches have the same length and the mode is known. The aligned cameras see every point as the source cameras see the point moved by one similarity transform, enlarged by its scale. Mode extrinsics: the rotation has the smallest squared error over all orthogonal matrices, the translation and (if estimated) the scale have the smallest squared error of the camera translations; if the two batches differ by a similarity transform of the world the result is exactly tgt, provided the variance of the camera translations turned into the world is at least eps; below that the scale is shrunk by variance / eps; one camera is always aligned exactly; but the transform can be a reflection although the documentation excludes this. Mode centers: the result is always a rotation, the aligned centres are the source centres moved by the least squares similarity transform of the centres; if the batches differ by a similarity transform every centre reaches its target, and the cameras are equal to tgt if three centres are not on a line; rotations of the targets are not looked at; a single camera, or cameras in one place, with estimate_scale=True gets scale 0.", "quantifier": "all numbers of cameras, rotations, translations, scales and results of torch.svd", "why_tests_cant": "tests align random batches of ten cameras with fixed tolerance; optimality over all transforms and the degenerate inputs cannot be sampled", "anchors": ["pytorch3d/ops/cameras_alignment.py:corresponding_cameras_alignment", "pytorch3d/ops/cameras_alignment.py:_align_camera_centers", "pytorch3d/ops/cameras_alignment.py:_align_camera_extrinsics"]}
{"id": "C82", "title": "Fisheye cameras: distance from the principal point, inverse, convergence, batches and indexing", "statement": "FishEyeCameras draw a point at angle \u03b8 from the optical axis at distance f |1 + k0 \u03b8\u00b2 + \u2026 + k5 \u03b8\u00b9\u00b2| \u03b8 from the principal point, in the direction of (x/z, y/z), when only the radial distortion is on; the depth is lost, and a point and its mirror image behind the camera are drawn at the same place. The matrix used by the Newton iteration holds the partial derivatives of the tangential and thin prism distortion, and dthD_dth is the derivative of the distorted angle. unproject_points(transform_points(X)) is X / z whenever both iterations find the value sought; this holds exactly without distortion parameters; for non-negative radial parameters and angles up to 89.91 degrees the direction is exact and the error of the angle shrinks by at least the factor 1 - 1/f'(f(\u03b8)) in each of the 50 steps, never dividing by zero. Where the iterations have come to rest, not at the clamping value, transform_points(unproject_points(x)) = x. Exceptions: the principal point is unprojected to NaN; with use_radial=False the inverse returns tan(r)/r times the point; where the derivative vanishes the result is NaN in spite of the mask; batches of cameras with world_coordinates=True raise for all points; cameras[i] has focal length 1 and the thin prism on; radial parameters of lengths other than 1 and 6 raise, a single one multiplies all six powers.", "quantifier": "all camera parameters, points, pixels, flags, numbers of iterations and batch sizes", "why_tests_cant": "tests compare stored values for a handful of points; convergence, the zero of the derivative and the lost attributes are not visible in them", "anchors": ["pytorch3d/renderer/fisheyecameras.py:FishEyeCameras.transform_points", "pytorch3d/renderer/fisheyecameras.py:FishEyeCameras.unproject_points", "pytorch3d/renderer/fisheyecameras.py:FishEyeCameras._get_theta_from_norm_xr_yr", "pytorch3d/renderer/fisheyecameras.py:FishEyeCameras._compute_duv_distorted_dxryr", "pytorch3d/renderer/fisheyecameras.py:FishEyeCameras.check_input"]}
{"id": "C83", "title": "Cameras from eye, at and up, turning on the spot, and joining batches of cameras", "statement": "look_at_view_transform(*camera_to_eye_at_up(view)) returns R and T of the camera, for every rotation R, with no exception for any direction of view; conversely from a camera made with look_at_view_transform(eye, at, up), camera_to_eye_at_up returns the same eye, at at distance 1 in the direction of view, and the orthogonalised up vector. For view transforms that are not rigid the round trip fails although any camera is admitted by the documentation. rotate_on_spot(R, T, rotation) leaves the centre where it is, turns the view by the rotation in the coordinates of the camera in the senses documented, keeps rotations, and two turns in a row are one turn by the product; a batch is handled row by row and one rotation serves all. Subtracting X from T moves the camera by X in its own coordinates. join_cameras_as_batch succeeds exactly if the list is not empty, all cameras have the same class and in_ndc, and K and image_size are set in all or in none of them; the joined object at offset_j + i is cameras_j[i]; taking an object apart and joining the parts returns the object.", "quantifier": "all rotations, translations, view points, up vectors, batch sizes and lists of cameras", "why_tests_cant": "tests make the round trip for ten look_at cameras and join lists of two; the condition on rigid transforms and the mixture of attributes are not sampled", "anchors": ["pytorch3d/renderer/camera_utils.py:camera_to_eye_at_up", "pytorch3d/renderer/camera_utils.py:rotate_on_spot", "pytorch3d/renderer/camera_utils.py:join_cameras_as_batch"]}
{"id": "C84", "title": "Overlap of 3D boxes: equal, nested and disjoint boxes, faces of the intersection, thresholds and input checks", "statement": "box3d_overlap on boxes whose faces are parallelograms: the volume of a box is the determinant of its edges; a box with triangles larger than 1e-4 overlaps itself with its volume and IoU 1; if one box lies in the inside of the other, the result is the volume of the inner box and the ratio of the volumes, in either order; if the boxes have no common point the result is (0, 0). These hold, and the faces of the first box that the code keeps are exactly the part of its surface in the second box, as long as no triangle is taken for coplanar with a plane and no edge meets a plane at an angle below the threshold dEpsilon (in the last three cases); without this condition the faces still lie on the surfaces of the boxes, the volume is not negative, and pieces stick out of a plane by at most dEpsilon / 2 times the longest edge. Cutting a triangle at a plane loses and counts twice nothing. GPU and CPU give the same results. The thresholds are not relative to the size of the boxes: two cubes of side 0.02 overlapping by a quarter get an IoU of 5/19 instead of 1/7, and two flat plates that do not touch an IoU of 0.2. The check for coplanar faces adds up the signed deviations of the six faces: boxes with planar faces always pass, boxes with faces bent by any amount in opposite senses pass as well, and boxes whose faces are all planar to within eps can be refused. The result of the call has one row for each box of the first and one column for each box of the second batch.", "quantifier": "all parallelepipeds, positions, batch sizes and thresholds eps", "why_tests_cant": "tests compare with a sampling estimate on fixed boxes of side about one; small and flat boxes and the cancellation in the check are not among them", "anchors": ["pytorch3d/ops/iou_box3d.py:box3d_overlap", "pytorch3d/ops/iou_box3d.py:_check_coplanar", "pytorch3d/ops/iou_box3d.py:_check_nonzero", "pytorch3d/csrc/iou_box3d/iou_utils.h:BoxIntersections", "pytorch3d/csrc/iou_box3d/iou_box3d_cpu.cpp:IoUBox3DCpu"]}
{"id": "C85", "title": "Harmonic embeddings, embeddings of Gaussians, LinearWithRepeat and the Gaussians of conical frustums", "statement": "HarmonicEmbedding(x) lists, coordinate by coordinate, the sines of the n_harmonic_functions multiples, then the cosines in the same order, then x if append_input; its length is get_output_dim for every setting; the frequencies are omega_0 * 2^k with logspace and equally spaced from omega_0 to omega_0 * 2^(n-1) without. With frequencies in powers of two and without the appended input, two points have the same embedding exactly if their coordinates differ by multiples of the period of the lowest frequency; with the appended input the embedding is injective. With diag_cov the entries are the expected values of the sines and cosines of a normally distributed coordinate, and for diag_cov = 0 the embedding of the mean (the documentation has the sign of the exponent wrong and one function too few). LinearWithRepeat is Linear applied to the concatenation of its inputs, with the second repeated. approximate_conical_frustum_as_gaussians returns the exact mean and variances, along and across the axis, of the uniform distribution on the part of the cone between the two lengths, and in world coordinates the diagonal of the covariance matrix for every direction with |d|^2 >= eps; variances are not negative; one Gaussian for each interval, an exception without bins or without radii. The lengths of a ray bundle with bins are the middles of the bins.", "quantifier": "all inputs, numbers of functions, frequencies, covariances, rays, radii and intervals", "why_tests_cant": "tests compare with a second implementation of the same formula and with sampling to a few digits; which points are confused by the embedding is not asked", "anchors": ["pytorch3d/renderer/implicit/harmonic_embedding.py:HarmonicEmbedding", "pytorch3d/common/linear_with_repeat.py:LinearWithRepeat", "pytorch3d/implicitron/models/renderer/base.py:approximate_conical_frustum_as_gaussians", "pytorch3d/implicitron/models/renderer/base.py:conical_frustum_to_gaussian"]}
{"id": "C86", "title": "The raymarchers of implicitron: weights and mask, agreement with the core raymarcher, colours, depth and the last point", "statement": "For implicitron's EmissionAbsorptionRaymarcher with surface_thickness 1 each point takes the share 1 - exp(-delta * density) of the light left; the weights always sum to the mask, and for non-negative weighted densities they are not negative and the sum is below 1. For any surface_thickness s > 0 they are the weights of pytorch3d.renderer.EmissionAbsorptionRaymarcher with eps = 0 on the capped densities, and their sum is at most s times the mask; the documented bound 1 fails for s = 2. For CumsumRaymarcher with thickness 1 each point takes its weighted density until one unit is used up, and the weights sum to the mask min(sum, 1). Splitting an interval of the emission-absorption raymarcher changes no other weight and divides that of the interval. For points sorted by depth with densities through ReLU both give a mask between 0 and 1, a depth between mask * nearest and mask * farthest, and, unless blend_output, features between bounds of the features and the background; a uniform colour is blended with the background by the mask, and by the square of the mask if blend_output. The mask of the first one is at least 1 - exp(-background_opacity * last density); with background_opacity = 0, the default of CumsumRaymarcher, the last point is ignored. Lengths that are not sorted give negative weights. A background with a number of channels that is neither 1 nor that of the features is refused.", "quantifier": "all rays, numbers of points and channels, densities, lengths or deltas, thicknesses and backgrounds", "why_tests_cant": "tests of the implicitron raymarchers compare with the core one on random data for thickness 1; thickness above one, blend_output and the last point are not examined", "anchors": ["pytorch3d/implicitron/models/renderer/raymarcher.py:AccumulativeRaymarcherBase", "pytorch3d/implicitron/models/renderer/raymarcher.py:EmissionAbsorptionRaymarcher", "pytorch3d/implicitron/models/renderer/raymarcher.py:CumsumRaymarcher"]}
{"id": "C87", "title": "Refining the points of a ray and rendering in several passes", "statement": "RayPointRefiner: for a sorted ray of at least three lengths, or two bin edges, and non-negative weights the result exists, is sorted, of the same kind, and consists of n_pts_per_ray new points (one more edge for bins) together with all given ones if add_input_samples; new points lie between the first and last middle of neighbouring lengths, or between the first and last edge, so the ray never leaves its range. Less than three lengths or a negative weight raise. The blur of the weights is the mean of the maxima with the two neighbours, the ends repeated: an upper envelope below the largest weight. MultiPassEmissionAbsorptionRenderer: with either raymarcher, ReLU on the densities and implicit functions that return one value per point, no pass fails; there is one output per implicit function, linked by prev_stage; the output of pass k is the raymarching of function k at the points of that pass, which are sorted, within the range of the given ray, as many as configured and contain the given points if append_coarse_samples_to_fine. Without implicit functions it raises.", "quantifier": "all rays, weights, numbers of points and passes, random numbers, implicit functions and settings", "why_tests_cant": "tests check a single refinement for sortedness on random input and shapes for the renderer", "anchors": ["pytorch3d/implicitron/models/renderer/ray_point_refiner.py:RayPointRefiner", "pytorch3d/implicitron/models/renderer/ray_point_refiner.py:apply_blurpool_on_weights", "pytorch3d/implicitron/models/renderer/multipass_ea.py:MultiPassEmissionAbsorptionRenderer"]}
{"id": "C88", "title": "efficient_pnp: exact recovery of a pose, which solution is chosen, and where the initial guess is wrong", "statement": "efficient_pnp(x, y, weights, skip_quadratic_eq): the barycentric coordinates of the points with respect to the four control points sum to one and reproduce every point, and the control points in the camera frame solve the linear system exactly if and only if every point of non-zero weight lies on its ray (x = u z, y = v z). R is always a rotation and T goes with it; err_2d is the weighted mean reprojection error of the returned pose (the documentation calls it the sum), and it is the smallest among the candidates, the first of one if skip_quadratic_eq and of four otherwise. Noise-free data whose linear system has a one-dimensional kernel give back exactly the pose they were made with, for any non-negative weights, as long as eps is small against the spread of the points. If the true control points are a combination of the first two null vectors and the quadratic system of that case has independent columns, all points of non-zero weight reproject exactly. The linearisation of the distances is correct; the starting coordinates of the second case are right up to sign; those of the third are right if the first two have the same sign, but for different signs the third coordinate is divided by eps, because a negative number is clamped.", "quantifier": "all numbers of points, positions, weights, eps and null vectors of the linear system returned by the eigensolver", "why_tests_cant": "tests use random scenes with many points and a tolerance, and never look at the starting values of the four cases or at data with a larger kernel", "anchors": ["pytorch3d/ops/perspective_n_points.py:efficient_pnp", "pytorch3d/ops/perspective_n_points.py:_null_space", "pytorch3d/ops/perspective_n_points.py:_kernel_vec_distances", "pytorch3d/ops/perspective_n_points.py:_binary_sign"]}
{"id": "C89", "title": "GLTF/GLB files: what a saved mesh comes back as, which bytes an accessor reads, and where nodes put their meshes", "statement": "Reading an accessor succeeds exactly if an element fits in the stride, the offset is a multiple of the component size and the data are either long enough for count whole strides or end at a whole stride; the element i, item j is then the number stored at offset + i*stride + j*size (columns first for matrices), and fewer elements than announced come back if the buffer is too short. So interleaved data that end with the buffer cannot be read. A mesh saved by MeshGlbFormat opens again exactly if the vertex colours have at least three channels per vertex. It comes back with the same vertices, if they are float32 numbers, and with every index reduced modulo 65536, so the faces are the same exactly if all indices are in [0, 65536). A textured mesh whose number of faces is odd cannot be read back with textures. Otherwise three channels per vertex come back the same, and a texture map comes back with every colour rounded down to a multiple of 1/255, the same verts_uvs, and the faces in place of faces_uvs. Saving flips the verts_uvs of the mesh itself, so that a second save writes different coordinates. Loading visits the nodes level by level, and each mesh is placed by the product of the transforms from its node up to the root: scale, rotation by the unit quaternion, translation, then those of the parent. A node given by a matrix is placed by the transposed matrix, which is right exactly if the linear part is symmetric and there is no translation. A cyclic node graph is visited forever.", "quantifier": "all meshes, textures, binary buffers, accessors, buffer views and node graphs; all codecs of JSON, PNG and float32 that read what they wrote", "why_tests_cant": "tests save and load a few meshes with an even number of faces and fewer than 65536 vertices and never use matrix nodes, interleaved data or a second save", "anchors": ["pytorch3d/io/experimental_gltf_io.py:_GLTFLoader", "pytorch3d/io/experimental_gltf_io.py:_GLTFWriter", "pytorch3d/io/experimental_gltf_io.py:_read_chunks", "pytorch3d/io/experimental_gltf_io.py:_make_node_transform", "pytorch3d/io/experimental_gltf_io.py:MeshGlbFormat"]}
{"id": "C90", "title": "Sphere tracing of a signed distance function: which rays hit, where, and what a ray reports if it misses", "statement": "For a signed distance function that never overestimates distances along a ray (every 1-Lipschitz function), sphere tracing from both ends of the interval inside the object bounding sphere always keeps every point of the surface and of the inside between the two fronts, whatever the number of iterations, the threshold and the line search, and a ray with a point strictly inside never ends with crossed fronts. A finished ray that is reported as a hit has a signed distance of at most the threshold at its point, is positive everywhere before it, and all rays finish if iterations times threshold reach the length of the interval. The sampler run on an unfinished ray reports a hit exactly if one of the samples is negative; the returned distance then lies in the first interval of samples with a change of sign, the secant iteration keeps a bracket of the root and is exact for affine functions. So in evaluation a hit is within the threshold of the surface or within one sample step of a root, and a miss means that no point of the ray is inside or that all samples of the remaining interval are outside. The result of a ray depends on the other rays only through the question whether any of them reaches the sphere: a ray that misses the sphere gets the world origin if no ray meets it, otherwise its camera centre. In training, rays left out get the sample of smallest signed distance or the point closest to the origin. The mask of the renderer is the soft mask at the hits and zero elsewhere, except that it is one everywhere if no ray of the batch hits. The differentiable distance of _sample_network has the value of the traced distance and the derivative of the implicit function theorem.", "quantifier": "all 1-Lipschitz signed distance functions, rays, radii, thresholds, numbers of iterations, steps and line search steps; all batches", "why_tests_cant": "tests trace a sphere with a handful of rays that all converge; an SDF with thin parts, unfinished rays and batches without a hit do not occur", "anchors": ["pytorch3d/implicitron/models/renderer/ray_tracing.py:RayTracing", "pytorch3d/implicitron/models/renderer/ray_tracing.py:_get_sphere_intersection", "pytorch3d/implicitron/models/renderer/sdf_renderer.py:SignedDistanceFunctionRenderer", "pytorch3d/implicitron/models/renderer/sdf_renderer.py:_sample_network"]}
{"id": "C91", "title": "Circle fitting in the plane and in space: optimality, exact recovery, uniqueness and the generated points", "statement": "The circle of fit_circle_in_2d has the smallest sum of squares of r^2 - distance^2 of all circles; the number under the root of the radius is the mean squared distance of the points from the centre, hence never negative. Points of a circle of which three are not on a line give back its centre and radius; the least squares solution is unique exactly if three of the points are not on a line. Centre and radius do not depend on the order of the points and follow translations, rotations, reflections and scalings. The signed area is the shoelace formula of the polygon closed by a straight line; it changes sign with the direction and is positive for three or more points in anticlockwise order. Generated points lie on the circle; the one at angle zero is the point of the circle closest to the first input point; n_points points are equally spaced but the last one is the first one again. Anticlockwise points of a circle are generated again from their angles relative to the first one. In space the plane through the centroid has the smallest sum of squared distances of all planes, the three axes are orthonormal and right-handed, points of a circle of which three are not on a line give back its centre, its radius and its normal up to sign, generated points lie on the fitted circle, and an offset moves all of them by a vector of its length, along the normal on the side of up if it points along z. The axes of a batch of exactly three equal point clouds are no rotation.", "quantifier": "all lists of points, all least squares solutions and eigenvector bases the linear algebra may return, all angles, offsets and up vectors", "why_tests_cant": "tests fit a few noisy circles and compare with tolerances; optimality, uniqueness, the choice of the eigenvectors and batches of three are not tested", "anchors": ["pytorch3d/implicitron/tools/circle_fitting.py:fit_circle_in_2d", "pytorch3d/implicitron/tools/circle_fitting.py:fit_circle_in_3d", "pytorch3d/implicitron/tools/circle_fitting.py:get_rotation_to_best_fit_xy", "pytorch3d/implicitron/tools/circle_fitting.py:_signed_area"]}
{"id": "C92", "title": "View pooling: which views a pooled feature depends on, and what average, deviation and maximum give", "statement": "With the default settings the pooled feature of a point depends only on the features and masks of the other cameras of its sequence, not on other sequences and not on the target image; without such a camera it is zero; more batches of points than cameras fail. Element c * pts_batch + b of the product of cameras and points is camera c with points b. AVG lies between the smallest and the largest feature of positive weight if the weights sum up to at least 0.01, below that it is shrunk; without masks every view of the sequence counts, also those that do not see the point. STD is never below 0.01, and 0.01 for equal features. Both ignore views of weight zero. MAX with weights zero and one is the maximum over the views of weight one if one of these is not negative; otherwise it can be replaced by minus ten times the absolute maximum over all views, so that it is zero for negative features as soon as a zeroed view exists; weights above one give more than the largest feature. get_aggregated_feature_dim is right exactly if STD_AVG is not used or there is one feature tensor. Angle weights lie between min^gamma and (1+min)^gamma, with the largest for the target camera.", "quantifier": "all numbers of cameras and batches, features, masks, sequence ids, reduction functions without repetition and camera centres", "why_tests_cant": "tests pool random positive features with the default reductions; negative features, MAX with masks, several feature tensors with STD_AVG do not occur", "anchors": ["pytorch3d/implicitron/models/view_pooler/feature_aggregator.py:_avgmaxstd_reduction_function", "pytorch3d/implicitron/models/view_pooler/feature_aggregator.py:_get_view_sampling_mask", "pytorch3d/implicitron/models/view_pooler/feature_aggregator.py:_get_ray_dir_dot_prods", "pytorch3d/implicitron/models/view_pooler/view_sampler.py:ViewSampler", "pytorch3d/implicitron/models/view_pooler/view_sampler.py:cameras_points_cartesian_product"]}
{"id": "C93", "title": "Metrics: best depth scale, PSNR, balanced cross entropy, IoU and the other losses", "statement": "In eval_depth a pixel counts exactly if its depth is positive and its mask above the threshold. The best scale gives the smallest mean squared error of all factors, and rescaled predictions have the same errors, if the mean square of the valid predictions is not below the clamp; below it the factor is too small. use_disparity rescales even if get_best_scale is off. PSNR is at most 100, strictly decreasing in the error above 1e-10, and 100 for an empty mask; with a binary mask the error is the mean over the mask. With equal_w the cross entropy is the mean of the mean foreground loss and the mean background loss, or the one of them that is not empty. With pred_logits the logits are clamped to [pred_eps, 1 - pred_eps]: all logits up to pred_eps give the same loss, and every probability is above one half. log_lerp is the logarithm from b on, above it below, with derivative 1/max(x, b) everywhere; the loss with lerp_bound is not negative and at most the cross entropy. rgb_l1 with a one-channel mask is the number of channels times the mean absolute error. huber lies in (|d| - s, |d| + s/100] and is positive at zero. iou lies in [0, 1), is n/(n + 1e-4) for equal binary masks and zero for two empty ones. beta_prior is not negative on [0, 1] and zero exactly at zeros and ones.", "quantifier": "all images, masks, thresholds and scales over the reals", "why_tests_cant": "tests compare a few random images with reference formulas; clamps, empty masks and logits are not covered", "anchors": ["pytorch3d/implicitron/tools/metric_utils.py:eval_depth", "pytorch3d/implicitron/tools/metric_utils.py:calc_psnr", "pytorch3d/implicitron/tools/metric_utils.py:calc_bce", "pytorch3d/implicitron/tools/metric_utils.py:log_lerp", "pytorch3d/implicitron/tools/metric_utils.py:iou", "pytorch3d/implicitron/tools/metric_utils.py:beta_prior"]}
{"id": "C94", "title": "Scene batch sampler: segments, windows, sizes of batches and repeated frames", "statement": "Splitting a sequence cuts it into pieces in order and without loss such that no gap within a piece is too large and every gap between two pieces is; these pieces are determined by the frames. It succeeds if frames have positive timestamps or increasing numbers and the first is not negative; a negative first frame number within the gap raises an IndexError. Culling keeps the segments that are long enough, or one longest one if none is, and never returns nothing: an empty sequence raises ValueError, the assertion after it cannot fail. Consecutive frames are a contiguous piece of one segment that contains the pivot, of the wanted length if the segment is long enough; every frame of every eligible segment can be the pivot. A batch never has more than batch_size frames, it is full if enough sequences were chosen and each has enough frames, and it has no frame twice if no sequence is in two categories. With categories the number of sequences is the sum over the chosen categories of the times it was chosen, capped by the size of the category; if there are at least as many categories as sequences wanted each is chosen at most once; otherwise the batch can be short although the dataset has enough sequences.", "quantifier": "all sequences of frames, gaps, sizes and all outcomes of the random choices", "why_tests_cant": "tests sample some batches from a small dataset; the outcomes of random choices, gaps, negative frame numbers and batches that are short cannot be enumerated", "anchors": ["pytorch3d/implicitron/dataset/scene_batch_sampler.py:SceneBatchSampler._sample_batch", "pytorch3d/implicitron/dataset/scene_batch_sampler.py:SceneBatchSampler._build_segment_index", "pytorch3d/implicitron/dataset/scene_batch_sampler.py:SceneBatchSampler._split_to_segments", "pytorch3d/implicitron/dataset/scene_batch_sampler.py:_cull_short_segments", "pytorch3d/implicitron/dataset/scene_batch_sampler.py:_capped_random_choice"]}
{"id": "C95", "title": "Cropping and resizing of frames: the box, the pixels and the camera stay consistent", "statement": "The box of a mask is the smallest box around the pixels above the first of the thresholds thr, thr - q, ... that has at least two pixels; a mask of one pixel never ends the search. get_clamp_bbox keeps the centre and lengthens the sides by the context factor; the box used for the crop lies in the image, its corners are those of the expanded box clamped to the image up to half a pixel, and a box of whole pixels inside the image is used as it is. A side of at most one pixel is refused. After a crop every pixel of image and mask is the pixel of the old image shifted by the corner, and the camera projects every point to the old place shifted by the corner; crops succeed if the expanded box overlaps the image by more than one pixel in each direction; the box of the metadata is used once. A depth map is cropped like the image if it has the size of the image; if it is smaller its box is multiplied by the factor instead of divided, so the crop fails for a box in the right part of the image. A resized frame has the wanted size, with the image in the top left corner, which the mask marks, and zeros elsewhere, and fails exactly if a side would vanish; the camera projects every point to the scaled place, which differs from the resized pixels by less than one pixel.", "quantifier": "all masks, thresholds, boxes, image sizes, context factors, cameras and points", "why_tests_cant": "tests crop a few frames of the sample dataset; degenerate masks, boxes at the border, depth maps of another size and the agreement of camera and pixels are not tested", "anchors": ["pytorch3d/implicitron/dataset/utils.py:get_bbox_from_mask", "pytorch3d/implicitron/dataset/utils.py:get_clamp_bbox", "pytorch3d/implicitron/dataset/utils.py:clamp_box_to_image_bounds_and_round", "pytorch3d/implicitron/dataset/utils.py:resize_image", "pytorch3d/implicitron/dataset/utils.py:adjust_camera_to_bbox_crop_", "pytorch3d/implicitron/dataset/utils.py:adjust_camera_to_image_scale_", "pytorch3d/implicitron/dataset/frame_data.py:FrameData._crop_by_bbox_"]}
{"id": "C96", "title": "Pulsar: tracked spheres, blending and the end of the loop over spheres", "statement": "The tracker holds, after any sequence of hits, as many of them as fit, in order of depth, and none of the others is closer; of equal depths the later comes first; unused entries are reported as (-1, -1). The running softmax is exact: the colour of a pixel is the average of background and hits with weights exp(b) and closeness * opacity * exp(e), for every order of the hits, and stays between the smallest and largest colour, unless the denominator falls below eps, which a hit of no weight in front of everything can cause and which turns the pixel black. If spheres come in order of their closest possible intersection the spheres drawn at a pixel are a prefix of those of its block; others are left out only if max_n_hits is reached or all of them begin behind the depth threshold. A sphere behind the threshold has less than pad / (1 - pad) of the weight drawn so far and alone changes a channel by less than percent_allowed_difference; all spheres left out together can change it by more. max_n_hits is not a hard limit: it has no effect if at most 64 spheres meet the block, and can be exceeded by almost the size of a full buffer. The load buffer never overflows.", "quantifier": "all sequences of hits, numbers of tracked spheres, settings, groups of loaded spheres", "why_tests_cant": "tests compare images of a few scenes with stored images; orders of hits, the cut-off and the limit on hits depend on scenes too large for tests", "anchors": ["pytorch3d/csrc/pulsar/include/closest_sphere_tracker.device.h:ClosestSphereTracker", "pytorch3d/csrc/pulsar/include/renderer.draw.device.h:draw", "pytorch3d/csrc/pulsar/include/renderer.render.device.h:render"]}
{"id": "C97", "title": "Pulsar: which pixels a sphere covers and at what depth", "statement": "A pixel shows a sphere if the chord between centre and the point of the ray at the same distance is at most the radius, or if the ray passes within three quarters of a pixel of the centre. In the first case the ray really meets the sphere, the depth is that of the first point of the ray on the sphere and lies between distance minus radius and distance; the converse fails, a ray that meets a large sphere near its silhouette can be left out. Weights lie between 0 and the opacity. Spheres drawn only because of the pixel of the centre can have a depth below the value by which they are sorted. The screen area of a ball in front of the camera plane contains the projections of all its points, so every pixel with such a hit lies in the stored bounds and its block loads the sphere. If the ball reaches behind the camera plane (centre in front) the area is on the wrong side: all visible points project beside it. In orthogonal projections the depth is that of the first point of the parallel line, the point of the pixel is half a pixel off the one used for the screen area, pixels of the disc still lie in the bounds, but a disc that covers only the first column can be taken for off screen.", "quantifier": "all centres, radii, rays, cameras, films and pixels", "why_tests_cant": "tests render a few scenes on one camera; balls near the camera plane, silhouettes, borders and tiny spheres are not examined", "anchors": ["pytorch3d/csrc/pulsar/include/renderer.draw.device.h:draw", "pytorch3d/csrc/pulsar/include/renderer.get_screen_area.device.h:get_screen_area", "pytorch3d/csrc/pulsar/include/renderer.calc_signature.device.h:calc_signature"]}
{"id": "C98", "title": "Pulsar: gradients by position, radius, colour, opacity and viewing ray", "statement": "For a sphere that is drawn with more than a pixel of projected radius and whose circle the ray meets strictly inside (half chord at least eps, other weights at least eps) the gradients computed are the derivatives of the pixel: by colour, by opacity, by radius, along every direction of the centre and (through the closeness and the depth) along every direction of the unnormalized viewing ray, in perspective and, in camera coordinates, in orthogonal projections. If the centre lies exactly on the ray of the pixel the position gradient of a perspective camera is 0/0. In orthogonal projections the position gradient in world coordinates is right if and only if the axes of the camera are multiples of those of the world. What the user receives is not the sum over pixels but the average over the pixels in which the sphere was tracked: it does not change if the same contribution appears in more pixels, and is zero if there are none.", "quantifier": "all centres, rays, radii, opacities, colours, other spheres (as weights), cameras", "why_tests_cant": "tests compare with finite differences on single scenes or only run the backward pass; a centre on a ray and a rotated orthogonal camera are not among them", "anchors": ["pytorch3d/csrc/pulsar/include/renderer.draw.device.h:draw", "pytorch3d/csrc/pulsar/include/renderer.norm_sphere_gradients.device.h:norm_sphere_gradients"]}
{"id": "C99", "title": "Pulsar: from cameras to the rays of pixels", "statement": "For a rotation and positive sensor width the camera parameters are accepted and the ray of film pixel (a, b) is the combination of the axes of the camera with half-pixel centres and the truncated principal point; the film lies in the aperture. A camera converted from OpenCV (no skew, equal focal lengths) sees along the ray of pixel (a, b) the OpenCV pixel (a + 1/2, h - 1 - b + 1/2) up to less than one pixel per axis from the truncation of the principal point, exactly if its offset from the image centre is whole: the image is upside down. In the unified interface equal focal lengths are accepted if and only if the image is not wider than high (up to 1e-5); for whole offsets column a is exact and row b is off by py * (h + w) / 2, so it agrees with PyTorch3D's cameras only for py = 0; the radius of a point in NDC is the requested one times f / (znear - 1e-6), so right for one value of znear; a field of view in degrees is converted in place in the tensor of the camera, so a second rendering sees pi/180 of it; one camera with several clouds raises IndexError, as many cameras as clouds pair up in order.", "quantifier": "all rotations, positions, intrinsics, image sizes, pixels, depths", "why_tests_cant": "tests render images of single scenes with square images and principal point 0 once", "anchors": ["pytorch3d/renderer/points/pulsar/renderer.py:_transform_cam_params", "pytorch3d/csrc/pulsar/pytorch/camera.cpp:cam_info_from_params", "pytorch3d/renderer/points/pulsar/unified.py:PulsarPointsRenderer"]}
{"id": "C100", "title": "Factorized voxel grids: evaluation, changes of resolution and cropping", "statement": "In all modes, paddings and alignments and at every point, evaluating a CP or VM factorized grid equals interpolating the full grid of the products of its factors times its basis (components in the order in which they are concatenated). The components of the three pairs add up to the number asked for, otherwise ValueError. The resolution at an epoch is that of the last change at or before it. A resized vector has at entry j the value of the old one at position j (n-1)/(m-1); refinement by a whole factor leaves the represented function unchanged everywhere in the volume. With align_corners crop_local keeps the smallest range of whole voxels that contains both points and with it all values between them; without align_corners cropping to the whole grid keeps only the last voxel of each axis. crop_self keeps values if both points lie on voxels, and otherwise moves them, since the extents are set from the points although whole voxels were kept. World points become local ones by subtracting the translation and dividing by half the extents; get_grid_points returns the positions of voxels only if the translation is 0 (and, without align_corners, if the resolution of the axis is that of x).", "quantifier": "all factors, numbers of components, resolutions, points, modes, extents, translations", "why_tests_cant": "tests compare a few random grids with a dense evaluation, and crop with align_corners and points on voxels", "anchors": ["pytorch3d/implicitron/models/implicit_function/voxel_grid.py:VMFactorizedVoxelGrid", "pytorch3d/implicitron/models/implicit_function/voxel_grid.py:CPFactorizedVoxelGrid", "pytorch3d/implicitron/models/implicit_function/voxel_grid.py:VoxelGridModule", "pytorch3d/implicitron/models/implicit_function/utils.py:interpolate_volume"]}
{"id": "C101", "title": "Binvox files: header and run lengths give exactly the set voxels", "statement": "Reading a binvox file written with size, translation and scale and any runs of which those of ones are not empty returns the size, the rounded translation and scale, and, in order, exactly the coordinates (x, y, z) of the cells (x * size + z) * size + y that are one in the expanded grid. x is below the size if and only if the index is below size cubed: the total length is not checked. A file without ones raises IndexError; an odd number of bytes cannot be read; an empty run of ones can give wrong voxels. align_bbox maps the bounding box of the source onto that of the target along each axis, preserving order, and is 0/0 for a flat source.", "quantifier": "all sizes, translations, scales, run-length encodings, point clouds", "why_tests_cant": "tests read one file of the dataset and compare with a stored result", "anchors": ["pytorch3d/datasets/r2n2/utils.py:read_binvox_coords", "pytorch3d/datasets/r2n2/utils.py:_compute_idxs", "pytorch3d/datasets/r2n2/utils.py:align_bbox"]}
{"id": "C102", "title": "ShapeNet and R2N2: selection of models, views, calibration and voxels", "statement": "The models of a category are exactly those at the indices from its start on, as many as its number. Selection by names returns models of those names in order (of equal names the first) or ValueError; by indices the indices or IndexError; by categories as many models of each as asked for, in order; samples are distinct if there are enough models. Requested views are used if all of them are loaded, otherwise all loaded ones. When rendering with more than one camera every mesh is rendered with cameras of its own model if and only if all models have the same number of views; otherwise other models' cameras are used without error. Voxels without renderings always fail, and a batch with a model without textures cannot be collated. The extrinsic matrix of azimuth, elevation and distance is a rotation with the camera at that distance, elevated above the xz plane, looking at the origin and upright; the calibration matrices give the same camera in PyTorch3D's convention. voxelize places a point at least 0.1 in front of the camera at the NDC position at which BlenderCamera projects it; depth positions grow with depth and lie within the grid exactly for depths between 0.2002002/0.332002 and 0.2002002/0.082002.", "quantifier": "all categories and models, requests, random draws, views, angles, distances, points", "why_tests_cant": "tests load a handful of models, all with the same number of views, and compare single renderings", "anchors": ["pytorch3d/datasets/shapenet_base.py:ShapeNetBase", "pytorch3d/datasets/r2n2/r2n2.py:R2N2", "pytorch3d/datasets/r2n2/utils.py:compute_extrinsic_matrix", "pytorch3d/datasets/r2n2/utils.py:voxelize", "pytorch3d/datasets/utils.py:collate_batched_meshes"]}
{"id": "C103", "title": "Implicitron's ray sampling: bundles, cones, depth ranges, overlaps and alignment of cameras", "statement": "ImplicitronRayBundle gives, for bins, the midpoints of neighbouring bins as lengths (one fewer than bins), which lie in their bins. A sampler that gets both or neither of a number of rays per image and in total, or one that does not fit, raises ValueError as stated. Sampling by a mask only chooses pixels of the mask, if it has any. Padding packed rays puts each camera's rays in order into its row; the returned third value is the number of rays, not of cameras. The radius of a cone has the variance of a pixel at depth one whatever the rotation of the camera; since directions have unit length an off-axis cone is wider than its pixel by the factor sqrt(a^2+b^2+1). The depth bounds of a scene of given centre and extent contain every point of it in front of the camera; the adaptive sampler uses those of the first camera of the batch for all. The overlap of cameras is symmetric and between 0 and 1, and 1 of a camera with itself, but not 0 for cameras that see nothing in common. Aligning cameras by a similarity keeps view coordinates of aligned points up to the scale and hence the pictures.", "quantifier": "all bins, settings, masks, counts, rotations, scenes, cameras, similarities", "why_tests_cant": "tests compare shapes and a few random bundles with a single camera", "anchors": ["pytorch3d/implicitron/models/renderer/ray_sampler.py:AbstractMaskRaySampler", "pytorch3d/implicitron/models/renderer/ray_sampler.py:AdaptiveRaySampler", "pytorch3d/implicitron/models/renderer/ray_sampler.py:compute_radii", "pytorch3d/implicitron/models/renderer/base.py:ImplicitronRayBundle", "pytorch3d/implicitron/tools/camera_utils.py:get_min_max_depth_bounds", "pytorch3d/implicitron/tools/camera_utils.py:volumetric_camera_overlaps", "pytorch3d/implicitron/tools/camera_utils.py:apply_camera_alignment"]}
{"id": "C104", "title": "Rasterizers: what a fragment means in the world", "statement": "MeshRasterizer uses the cameras of the call if that keyword is given and otherwise its own, one for all meshes or one each; otherwise ValueError (also for cameras=None in the call). By default perspective correction is on exactly for camera classes that call themselves perspective, and faces are clipped at half the smallest near plane only if the class also has one. For a perspective camera with correction and unclipped coordinates, a fragment at a pixel inside a projected face whose vertices are at depth 1/5000 or more has positive coordinates with sum one, and the point of the face in world space with these coordinates projects exactly to the centre of the pixel and has exactly the fragment's depth. For orthographic cameras the same holds up to the factor area / (area + 1e-8). Without correction in a perspective view the depth is never smaller than the true one, and right only if the three vertices are equally deep. Without a clipping plane a face with a vertex behind the camera is not drawn at any pixel.", "quantifier": "all cameras, numbers of cameras and meshes, settings, faces, pixels", "why_tests_cant": "tests compare rendered images with stored ones", "anchors": ["pytorch3d/renderer/mesh/rasterizer.py:MeshRasterizer", "pytorch3d/renderer/points/rasterizer.py:PointsRasterizer", "pytorch3d/renderer/mesh/rasterize_meshes.py:rasterize_meshes"]}
{"id": "C105", "title": "Implicitron models in chunks: every ray once, results joined, masks, losses and inliers", "statement": "For rays that are not packed the chunk generator cuts each image's rays into consecutive chunks of ceil(chunk size / points per ray / batch) rays (at least one), which together are the rays in order without gap or overlap; evaluating a function chunk by chunk and joining the results gives the same as one call, for any function that treats rays separately. A bundle without rays raises ZeroDivisionError; packed bundles are one chunk whatever their size, with the id and count of the first camera only. Joining dataclasses joins each tensor field, and dictionaries key by key; a field that is None in the first chunk is None in the result. The objective is the sum over the weighted losses present of weight times loss, and None with none present. Preprocessing thresholds the mask, masks images and depths as set, does nothing without a mask, and asserts if depths shall be masked without a positive threshold. Inlier indicators remove exactly floor(n r) of n entries, those of the largest values (up to ties), from each row.", "quantifier": "all bundles, chunk sizes, functions, dictionaries, weights, masks, values, ratios", "why_tests_cant": "tests run a small model with one chunk size", "anchors": ["pytorch3d/implicitron/models/utils.py:chunk_generator", "pytorch3d/implicitron/models/utils.py:apply_chunked", "pytorch3d/implicitron/models/utils.py:preprocess_input", "pytorch3d/implicitron/models/utils.py:weighted_sum_losses", "pytorch3d/implicitron/tools/utils.py:cat_dataclass", "pytorch3d/implicitron/tools/utils.py:get_inlier_indicators"]}
{"id": "C106", "title": "Point clouds of RGB-D frames: rendered depth and mask, unprojection and depth clean-up", "statement": "render_point_cloud_pytorch3d's depth is the front-to-back composite of the depths, its mask one minus the product of transmittances; so for points all at one depth the depth is depth times mask, not the depth. rasterize_mc_samples returns the features over the background, and the square of the opacity as mask. get_rgbd_point_cloud has exactly one point for each pixel with mask above the threshold and positive depth, at that depth along the pixel's ray (or at that distance, if so asked). cleanup_eval_depth's mask is one at exactly the pixels to which some valid point of the cloud is mapped whose depth differs from the depth map there by the threshold at most; the look-up takes NDC coordinates for grid coordinates, which is right for every pixel of square images and shifted in wide ones, and points outside the image mark the first pixel.", "quantifier": "all fragments, depths, masks, cameras, image sizes", "why_tests_cant": "tests compare one rendered cloud with its input up to a tolerance", "anchors": ["pytorch3d/implicitron/tools/point_cloud_utils.py:render_point_cloud_pytorch3d", "pytorch3d/implicitron/tools/point_cloud_utils.py:get_rgbd_point_cloud", "pytorch3d/implicitron/tools/rasterize_mc.py:rasterize_mc_samples", "pytorch3d/implicitron/tools/depth_cleanup.py:cleanup_eval_depth"]}
{"id": "C107", "title": "Data loaders for new-view synthesis: batches of one target and known frames", "statement": "DoublePoolBatchSampler raises ValueError exactly if the rest pool is smaller than the batch size minus one; otherwise it gives num_batches batches (the size of the first pool for None and 0), each with its first index from the first pool and the others from pairwise different places of the rest pool. Without replacement each place of the first pool is used equally often up to one. The simple loader cuts the order into batches of the exact size and drops the rest, so a dataset smaller than a batch gives none. The train loader conditions frames on those of the training set (possibly the frame itself, when the training set is loaded); the known loader takes the target from the unseen frames and the rest from the known ones. With batch size one the simple loader is used whatever the conditioning.", "quantifier": "all pools, batch sizes, numbers of batches, orders drawn, datasets", "why_tests_cant": "tests look at lengths and sequence names of a few small loaders", "anchors": ["pytorch3d/implicitron/dataset/data_loader_map_provider.py:DoublePoolBatchSampler", "pytorch3d/implicitron/dataset/data_loader_map_provider.py:SimpleDataLoaderMapProvider", "pytorch3d/implicitron/dataset/data_loader_map_provider.py:SequenceDataLoaderMapProvider"]}
{"id": "C108", "title": "Training statistics: histories and averages per epoch", "statement": "After any sequence of new epochs and updates, for every set and every logged name (names listed once): the history of each epoch is exactly the list of values given in that epoch for that set and name in order, and sum, count and average of the meter are those of the current epoch (zero after a new epoch). The iteration counter of a set is one less than the number of its updates that were not frozen since the epoch began. An update before the first epoch starts it. A meter's average is the mean weighted by the given numbers, whereas its history has the values divided by these numbers, so both agree only for number one, which is what Stats uses. Adding a name that is logged already logs it twice, and its values then count twice.", "quantifier": "all sequences of operations, sets, names, values", "why_tests_cant": "tests do not cover the class", "anchors": ["pytorch3d/implicitron/tools/stats.py:AverageMeter", "pytorch3d/implicitron/tools/stats.py:Stats"]}
{"id": "C109", "title": "Autodecoder: one code per key, kept across checkpoints", "statement": "Along any sequence of calls on string keys each new key takes the next free code and each key seen before keeps its own, so different keys never share a code; a batch is answered by the codes of its keys in order, and fails exactly when the keys seen and the new ones together are more than the codes. A failing batch has nevertheless assigned codes to its earlier keys. Saving and loading gives every saved key its code again, with the remaining codes for new keys, whatever the order of the saved pairs is by code; fewer codes than keys make loading fail. Integer inputs are used as code numbers without the key map, so they share codes with keys. With ignore_input a single code is returned whatever the batch size.", "quantifier": "all sequences of keys and batches, numbers of codes, saved states", "why_tests_cant": "tests train one small decoder", "anchors": ["pytorch3d/implicitron/models/global_encoder/autodecoder.py:Autodecoder"]}
{"id": "C110", "title": "Decoding functions: element-wise decoder and the multi-layer perceptron with input skips", "statement": "ElementwiseDecoder applies the operation to scale times input plus shift. It keeps the order of the features for a scale that is not negative, and without an operation the inverse scaling undoes it. MLPWithInputSkips, called with inputs of the declared sizes, always returns the output size if no skip is at layer 0; a skip at layer 0 makes every call fail. Its last layer always is a ReLU and last_activation is applied to the hidden layers instead (the condition is inverted): outputs are never negative, with IDENTITY the network is the positive part of an affine map of the input, and it equals the documented network when last_activation is RELU and differs from it for some network otherwise.", "quantifier": "all sizes, layers, skips, weights, biases, inputs", "why_tests_cant": "tests do not compare the network with its definition", "anchors": ["pytorch3d/implicitron/models/implicit_function/decoding_functions.py:ElementwiseDecoder", "pytorch3d/implicitron/models/implicit_function/decoding_functions.py:MLPWithInputSkips"]}
{"id": "C111", "title": "Evaluation video trajectories: closed curves whose cameras look at the scene", "statement": "The knot curves are closed with the documented period and bounded: the figure of eight stays in its box and crosses itself at the origin, and the eight-knot and trefoil stay in a ring away from the axis. The height scale is the largest coordinate of the train cameras along the up axis, the offset of a knot is added in world coordinates. Every camera of the trajectory lies at its curve point and sees the scene centre on its optical axis. The circular trajectory lists its first camera twice, so the mean about which it is scaled is the centre shifted by radius/n, and scaling moves the centre. The up vector is flipped to agree with the cameras' mean up; an up vector in the fitted plane gives a zero up vector.", "quantifier": "all times, numbers of cameras, scales, offsets, train cameras", "why_tests_cant": "tests do not cover the trajectories", "anchors": ["pytorch3d/implicitron/tools/eval_video_trajectory.py:generate_eval_video_cameras"]}
{"id": "C112", "title": "JSON-indexed datasets: filters, sequence index, lookups, subsets, joins and frame order", "statement": "Frames kept are exactly those with a mask mass above one (if empty masks are removed), of the picked and not excluded sequences and categories, within the limits; the index by sequence lists exactly each sequence's frames in order. Looking up (sequence, frame number, path) gives the index of that frame; missing frames raise IndexError, or are dropped if asked for and the dataset counts as filtered, for which `subsets` does not count. A subset by frame index has exactly these frames with empty index and keeps the evaluation batches with their old, now stale, numbers. Joining appends frames, but appends the other datasets' evaluation batches without shifting their numbers, so they name wrong frames; joining datasets with and without batches raises ValueError. Frames in order are sorted by timestamp, number and index; with a subset filter the pairs are misaligned and wrong frames are returned, and a mix of missing and present timestamps raises TypeError.", "quantifier": "all frame lists, sequences, filters, batches", "why_tests_cant": "tests use one small category without joins", "anchors": ["pytorch3d/implicitron/dataset/json_index_dataset.py:JsonIndexDataset", "pytorch3d/implicitron/dataset/dataset_base.py:DatasetBase"]}
{"id": "C113", "title": "SQL-indexed datasets: filters, index, look-ups, frames in order and evaluation batches", "statement": "The index of a dataset without subset lists has exactly the rows of the frames whose masks reach the required mass and whose sequence passes the picks, exclusions, categories and limits; with lists, exactly the listed frames among these, an unknown subset name being an error; sampling keeps exactly min(n, length) frames of each sequence. Looking up a frame by sequence and number, with or without a path, gives exactly its row, and a missing one an IndexError. A frame listed in two subsets either fails or can never be read. Zero frames per sequence always raises although documented as no sampling. sequence_frames_in_order puts the table's rows beside the index's places, so it is right exactly when both have the same order, and it does not sort by time. get_frame_numbers_and_timestamps returns triples whose first entry is the row. Evaluation batches are filtered by the union of picked sequences and categories and not by limits, whereas the dataset uses the intersection, so batches may name frames that the dataset does not have.", "quantifier": "all tables, lists, filters, samples, queries", "why_tests_cant": "tests use one small database", "anchors": ["pytorch3d/implicitron/dataset/sql_dataset.py:SqlIndexDataset"]}
{"id": "C114", "title": "Dataset maps: joining categories, set names, restriction to sequences and known test views", "statement": "Joining the maps of several categories joins each of train, val and test with the others' sets of the same kind and leaves the other sets alone when the sets are different objects; with test_on_train, where all three are one object, it receives the others' frames three times, and given an iterator only the train sets are joined. The set names are exactly the task's, with the training frames part of val and test. The restricted single-sequence id picks the sequence of that number in order of first appearance and keeps exactly its batches, numbers below zero or out of range and ids together with names being errors; names keep exactly the batches of these sequences. Extending test batches with known views keeps every batch as a prefix and adds the smaller of the asked number and the number of training frames of its sequence, all different, which may repeat frames of the batch; a sequence without training frames is a KeyError.", "quantifier": "all maps, categories, sequences, batches, random choices", "why_tests_cant": "tests load one category", "anchors": ["pytorch3d/implicitron/dataset/dataset_map_provider.py:DatasetMap", "pytorch3d/implicitron/dataset/json_index_dataset_map_provider.py:JsonIndexDatasetMapProvider", "pytorch3d/implicitron/dataset/json_index_dataset_map_provider_v2.py:JsonIndexDatasetMapProviderV2"]}
{"id": "C115", "title": "CUDA helpers: the warp minimum under every order of the lanes, and register arrays", "statement": "WarpReduceMin lets the lanes of a warp read and write shared memory in any order within a step. Whatever the order, slot 0 ends with exactly the result of the synchronous reduction, so the closest primitive found by the distance kernels does not depend on the order; other slots may. A register array of at most 32 elements behaves as an array: reading after writing gives the value written and leaves the others; reads beyond it give a default and writes are lost.", "quantifier": "all values, indices, interleavings of lanes, array sizes", "why_tests_cant": "a race shows only in some orders of the lanes, and tests see one", "anchors": ["pytorch3d/csrc/utils/warp_reduce.cuh:WarpReduceMin", "pytorch3d/csrc/utils/index_utils.cuh:RegisterIndexUtils"]}
{"id": "C116", "title": "Checkerboard: a square board of alternating unit squares", "statement": "For a radius r the checkerboard lists exactly the (2r)^2 unit squares with integer corners between -r and r in the plane z = 0, row by row, each as its two triangles with one colour; squares sharing an edge have opposite colours; every vertex number is valid and every triangle has area one half and the same orientation. A radius below one is an error.", "quantifier": "all radii", "why_tests_cant": "tests build one board and do not check its geometry", "anchors": ["pytorch3d/utils/checkerboard.py:checkerboard"]}
{"id": "C117", "title": "Checkpoints: names, the last checkpoint, saving and loading, purging", "statement": "The file name of an epoch below 10^8 has eight digits, different epochs have different names, and parsing a name gives its epoch back. The last checkpoint found in a directory is exactly the existing model file of the largest epoch below 10^8; larger epochs have nine digits and are never found. All checkpoints found are exactly the existing ones, in order. Loading after saving returns what was saved, and saving does not touch files of other epochs; saving without optimizer leaves an earlier optimizer file, which is loaded. A safe save leaves the new files and no temporaries; interrupted between its renames it leaves the new statistics or model beside the old rest. Purging removes exactly the three files of the given epoch. With any_path a model name is returned even though no file exists.", "quantifier": "all epochs, directories, contents, points of interruption", "why_tests_cant": "tests write one or two epochs", "anchors": ["pytorch3d/implicitron/tools/model_io.py:find_last_checkpoint", "pytorch3d/implicitron/tools/model_io.py:get_checkpoint", "pytorch3d/implicitron/tools/model_io.py:safe_save_model"]}
{"id": "C118", "title": "Configurable classes: the registry, creation of members and removal of unused settings", "statement": "A registered class is filed under exactly one base class, the last subclass of ReplaceableBase in its resolution order before it, and looked up by name returns the class registered last under this name that is a subclass of the asked base, other look-ups being errors. Listing a base gives exactly the classes registered for it that are subclasses. Creating a member of a type known when its owner was expanded gives an object of this class with its own arguments; a class registered later can be looked up but creating it is an error. Removing unused settings keeps exactly the settings of the selected types and all others, at every depth, and doing it twice changes nothing, provided no member's name continues the name of a replaceable one; otherwise it removes arguments in use or raises.", "quantifier": "all class hierarchies, registration orders, configurations", "why_tests_cant": "tests use a handful of classes", "anchors": ["pytorch3d/implicitron/tools/config.py:_Registry", "pytorch3d/implicitron/tools/config.py:remove_unused_components"]}
{"id": "C119", "title": "Training: parameter groups, learning rate schedules and resuming", "statement": "Every trainable parameter of a model is listed once per place in the module tree, in order, with the group named for this place by its module or else by the modules around it, and no other parameter is; a parameter shared by two places is listed twice, and the documented child.self has no effect. The default group has the base learning rate and every other group exactly the rate listed for it, a group without rate being an error. The LinearExponential policy rises in equal steps from its start factor to one and then decays by gamma in every step_size epochs, staying positive and at most one. Resuming at an epoch gives the same rate as running through for policies that compute it from the epoch; for MultiStepLR, the default, the milestones already passed are applied twice, so with a positive factor the rate is right exactly if none was passed or the factor is one. The optimizer state taken is that of the last or of the asked checkpoint, a missing file being an error. Purging keeps exactly the last p + 1 checkpoints, and zero removes nothing.", "quantifier": "all module trees, group settings, schedules, epochs", "why_tests_cant": "tests train a few epochs of one model and do not resume after a milestone", "anchors": ["projects/implicitron_trainer/impl/optimizer_factory.py:ImplicitronOptimizerFactory", "projects/implicitron_trainer/impl/training_loop.py:ImplicitronTrainingLoop"]}
{"id": "C120", "title": "Losses of rendered views: which images are compared, what the losses measure, names of stages", "statement": "For packed rays the loss compares the rays of the k-th sampled camera with image ids[ids[k]]: for the sorted camera numbers the sampler returns this is right exactly when the sampled cameras are the first ones, and an IndexError otherwise. The squared colour error is never negative, zero exactly if prediction and image agree inside the crop (for the foreground error: on the foreground inside it), does not depend on pixels outside, and without crop is the mean over pixels and channels; with a mask mass below one it is not a mean but is scaled down by the mass. A different number of channels is an error. The eikonal loss is zero exactly if all gradients have length one, the depth penalty exactly if no depth is negative; the total variation of a grid is at least sqrt(1e-5), which a constant grid attains, and ignores the edges where two axes end. The metrics of all stages are returned, none overwriting another.", "quantifier": "all camera numbers, images, masks, gradients, grids, numbers of stages", "why_tests_cant": "tests use bundles in which every camera is sampled and random images", "anchors": ["pytorch3d/implicitron/models/metrics.py:ViewMetrics", "pytorch3d/implicitron/models/metrics.py:_rgb_metrics"]}
{"id": "C121", "title": "Voxel grid implicit function: filtering by the scaffold, its occupancy, cropping and epochs", "statement": "Every point gets its density and its colour seen along its own ray. With a scaffold the points in occupied cells get exactly the same and all others zeros, in the order of the input; if all points are filtered the outputs have widths one and three whatever the decoders return. With an odd pooling window the scaffold keeps its resolution and a cell is occupied exactly if a cell within half the window along every axis has a density above the threshold; an even window enlarges it by one. Computing it in chunks splits the coordinates instead of the planes, so sizes one and two fail and all others mean a single chunk. Cropping uses the smallest box with all occupied cells and changes nothing if there is none. A run of epochs succeeds exactly if each cropping epoch has a scaffold computed at or before it in the same run, so a resumed run can fail where the original did not.", "quantifier": "all rays, scaffolds, grids, windows, chunk sizes, epochs", "why_tests_cant": "tests use one grid and one run", "anchors": ["pytorch3d/implicitron/models/implicit_function/voxel_grid_implicit_function.py:VoxelGridImplicitFunction"]}
{"id": "C122", "title": "Evaluation of new view synthesis: hidden targets, averages, summaries and tables", "statement": "When depth, foreground, image and crop are present, the batch given to the model has zeros for the target in all four and everything else unchanged, so two batches that differ in these fields of the target only are the same to the model; without one of them evaluation raises TypeError. A batch is accepted exactly if it has frame types, image, camera and a complete render and its conditioning frames are all of one kind; whether they are known is not checked. Averages over batches are exact means of the selected values, NaN for none; a selected batch lacking a metric of the first raises KeyError and metrics the first does not have are dropped. A summary of several sequences has twelve entries whose batches are decided by frame type and number of source views, the train and test sums adding up to the sum over all. Flattening a summary loses and mixes nothing. The header of the printed table is right exactly for subsets with an entry for every subsubset. Aggregation over tasks is the mean of the numbers, NaN left out.", "quantifier": "all batches, metrics, subsets, tasks", "why_tests_cant": "tests evaluate one short sequence and check that numbers improve", "anchors": ["pytorch3d/implicitron/evaluation/evaluator.py:_get_eval_frame_data", "pytorch3d/implicitron/evaluation/evaluate_new_view_synthesis.py:summarize_nvs_eval_results", "pytorch3d/implicitron/evaluation/evaluate_new_view_synthesis.py:aggregate_nvs_results"]}
{"id": "C123", "title": "GenericModel and OverfitModel: targets, construction, bound arguments and cached hypernetworks", "statement": "A forward pass renders one view in evaluation and in training the configured number, all if that is not positive or too large; it gets exactly the cameras, images, depths and masks of the first views of the batch. The evaluator finds a render exactly if evaluation samples the full grid. GenericModel builds for every class exactly if pooling has a feature extractor, other than one pass is allowed by the class and NeRFormer has unaggregated pooled features; its functions all are of the configured class, and for the NeRF and SRN classes the announced widths add up to pooled features plus global code, whereas IdrFeatureField is never told about pooled features. In any sequence of forward passes of GenericModel, with failures and changing parameters in between, each evaluation uses the network which its own parameters make of its own code. OverfitModel never clears the cache of a hypernetwork, so all passes use the first network; it cannot be built with IdrFeatureField, and a coarse class gets the arguments of the fine one.", "quantifier": "all batches, settings, classes, sequences of passes", "why_tests_cant": "tests run single forward passes of a few configurations", "anchors": ["pytorch3d/implicitron/models/generic_model.py:GenericModel", "pytorch3d/implicitron/models/overfit_model.py:OverfitModel", "pytorch3d/implicitron/models/renderer/base.py:ImplicitFunctionWrapper"]}
{"id": "C124", "title": "Scene representation networks and IDR feature fields: marching, widths and initialisation", "statement": "The LSTM renderer evaluates its function once per step and once at the end; a new renderer marches to init_depth up to the steps times the sum of the output weights, the depth returned is the marched one times the length of the direction and colours lie between background and generated colour. The initial forget bias sets exactly the biases of the forget gate; the recurrent initialisation does nothing. A predicted linear layer uses every predicted parameter exactly once. A fully connected block accepts exactly its input width and returns its output width; SRNRaymarchHyperNet returns n_hidden_units values whatever out_features says. An IdrFeatureField can be built exactly if every hidden layer in skip_in is at least as wide as the embedding, and returns d_out plus feature_vector_size values per point if skip_in contains neither 0 nor the number of layers; 0 in skip_in always fails, and without embedding there are no rows. Geometric initialisation keeps the first three columns: with the default embedding skip layers are zero and weight normalisation undefined, and with three or more harmonics a new field depends on the first coordinate only.", "quantifier": "all widths, weights, rays, points, settings", "why_tests_cant": "tests run default settings and look at shapes", "anchors": ["pytorch3d/implicitron/models/renderer/lstm_renderer.py:LSTMRenderer", "pytorch3d/implicitron/models/implicit_function/idr_feature_field.py:IdrFeatureField", "pytorch3d/implicitron/models/implicit_function/scene_representation_networks.py:SRNRaymarchHyperNet"]}
{"id": "C125", "title": "The NeRF project: chunks, cached rays, stratified depths, weights, datasets and trajectories", "statement": "In evaluation a single camera is rendered completely, every pixel once and in place, for every chunk size; several cameras are so exactly in one chunk, otherwise rays are lost or an exception is raised. Rays precached in evaluation mode are for every chunk the rays of the camera; rays cached in training mode are only a random part of them; a repeated hash is refused with the cameras before it kept. Stratified depths stay in their strata, in order and between the first and last depth; the fine pass keeps the coarse depths and sorts. The weights of a ray sum to one minus what passes all points, so to one exactly if some point is opaque, not always as documented. Image and camera of a dataset entry belong together when the image height is a multiple of the number of cameras, otherwise there is an error or too few images. A circular trajectory lies on a circle around its mean and repeats its first camera at the end.", "quantifier": "all chunk sizes, cameras, depths, densities, image heights", "why_tests_cant": "tests use one camera and fixed chunk sizes", "anchors": ["projects/nerf/nerf/raysampler.py:NeRFRaysampler", "projects/nerf/nerf/raymarcher.py:EmissionAbsorptionNeRFRaymarcher", "projects/nerf/nerf/dataset.py:get_nerf_datasets"]}
{"id": "C126", "title": "OpenGL rasterizer: pixels, faces, depths, batches and buffers", "statement": "For FoV perspective cameras and images of any aspect, given an exact GL implementation: a pixel reports a face exactly if it is the nearest (of equally near ones the first) among the faces that contain a point projecting to the very pixel centre MeshRasterizer uses, between GL's near plane (between znear/2 and znear) and before zfar; barycentrics and zbuf are the perspective-correct weights and the view depth of this point. Otherwise all outputs, zbuf included, are -1 (documented: 1 and a nonlinear depth); everything at or beyond zfar is background. The camera matrix reaches the shader untransposed. One camera serves all meshes, several serve a mesh each, too few are an IndexError and surplus ones ignored. Face ids of a batch are those within the mesh: they are the packed ids only if no mesh before has faces, otherwise shaders read faces of the first meshes. The first rasterizer used on a device fixes the buffer size for all later ones; a mesh with more faces than that is written beyond it. forward proceeds exactly on CUDA meshes without z-clipping or disabled perspective correction, within the maximal size and without PerspectiveCameras or OrthographicCameras.", "quantifier": "all meshes, triangles, image sizes, cameras, sequences of calls", "why_tests_cant": "tests compare with MeshRasterizer on single meshes within tolerances", "anchors": ["pytorch3d/renderer/opengl/rasterizer_opengl.py:MeshRasterizerOpenGL", "pytorch3d/renderer/opengl/rasterizer_opengl.py:_OpenGLMachinery", "pytorch3d/renderer/opengl/opengl_utils.py:_DeviceContextStore"]}
{"id": "C127", "title": "Radiance fields with pooled views: broadcast codes, rotated directions, NeRFormer attention and transformer widths", "statement": "A global code reaches exactly the rays of its own batch element when there is one code per element; with n codes of width D for a batch of n times D elements the wrong number is accepted and each element gets one number of a code, repeated. Directions are rotated by the camera when there is one; with several cameras the product aligns the rotations with the second dimension of the rays, so it fails, or, when that dimension is as long as the number of cameras, the rays of row i are rotated by camera i instead of their own. Densities and colours of a point depend on the point, its code and, for the colour, the normalised direction only, whatever the length of the direction. The NeRFormer gives the same output for any order of the source views and the outputs of points permuted along a ray are permuted alike; a point's output depends on its own ray only. Pooling over views is a mean with weights that sum to one, so lies between the views and is the view itself when there is one. A transformer can be built and run exactly if its widths are positive multiples of four that never grow.", "quantifier": "all codes, cameras, rays, views, points, widths", "why_tests_cant": "tests check the shape of outputs of default networks on one camera", "anchors": ["pytorch3d/implicitron/models/implicit_function/utils.py:broadcast_global_code", "pytorch3d/implicitron/models/implicit_function/neural_radiance_field.py:NeuralRadianceFieldBase", "pytorch3d/implicitron/models/implicit_function/decoding_functions.py:TransformerWithInputSkips"]}
{"id": "C128", "title": "plot_scene and plot_batch_individually: which structure is drawn where, axes, viewpoints and lines", "statement": "plot_batch_individually makes one subplot per batch element, as many as the largest structure has; a structure shorter than that must have length one and is drawn in all of them when extend_struct, otherwise an error. Without extend_struct the position of a structure in the list is compared with its length instead of the number of the subplot, so a structure is drawn in every subplot or in none; this is the documented behaviour exactly if all structures are equally long and not fewer than there are structures. Repeated subplot titles leave only the last element of that title. The axes of a scene contain every point of every trace drawn there, and adding a trace never shrinks them; they are a cube for one trace, not always for several. A viewpoint camera is scaled so that it looks in its own direction from its own place relative to the axes; an axis of length zero divides by zero; a number of cameras other than one or the number of subplots is not used. Camera wireframes are the eight segments of each frustum, those of one camera never joined to the next; ray bundles are one segment per ray between its first and last point, after one uninitialised point.", "quantifier": "all structures, lists, titles, traces, cameras, rays", "why_tests_cant": "tests count subplots and traces of small scenes", "anchors": ["pytorch3d/vis/plotly_vis.py:plot_batch_individually", "pytorch3d/vis/plotly_vis.py:_update_axes_bounds", "pytorch3d/vis/plotly_vis.py:_gen_fig_with_subplots", "pytorch3d/vis/plotly_vis.py:_add_ray_bundle_trace"]}
{"id": "C129", "title": "CUDA geometry agrees with the C++ geometry", "statement": "Every device function of geometry_utils.cuh computes exactly what its C++ counterpart does: edge function, barycentric coordinates, perspective correction, clipping, distances to segments and triangles in the plane, with all their gradients, for all arguments; in space the areas, barycentric coordinates, inside tests, normals, gradients of the distance to a segment, and the distance to a segment and to a triangle and its gradients whenever the squared edges exceed kEpsilon, or, for the triangle, the projection lies inside. The one difference: a segment of squared length below kEpsilon is its first end on the GPU and its second on the CPU, so the two differ by less than 1e-4 in distance, exchanging the ends exchanges the values, and a triangle all of whose edges are so short is its first two vertices on one device and its last two on the other.", "quantifier": "all points, segments, triangles, gradients", "why_tests_cant": "tests compare devices on random triangles, never with short edges", "anchors": ["pytorch3d/csrc/utils/geometry_utils.cuh:PointTriangle3DistanceForward", "pytorch3d/csrc/utils/geometry_utils.h:PointTriangle3DistanceForward", "pytorch3d/csrc/utils/float_math.cuh:normalize_backward"]}
{"id": "C130", "title": "knn_points on the GPU: the kernel that runs and the queries it computes", "statement": "For every requested version, dimension and number of neighbours, as soon as there is a cell to compute, a kernel with exactly this dimension and number is run: the requested version if it supports them, otherwise the greatest one that does, with a warning unless the request was negative; the assertion on the version never fails. Template dispatch runs the kernel with the run-time values exactly when they are in the range and otherwise silently nothing. For any numbers of blocks and threads the threads together compute every point below its cloud's length exactly once, provided lengths do not exceed the padded size (else points of the next cloud's rows are computed too, unchecked), they write to different cells of the output, and in whatever order they run each query's row ends up with K nearest neighbours of it and the padded rows with zeros. Versions 0 and 1 compute the offset of a row in 32 bits: right exactly if the last row starts below 2^31. Register arrays behave as arrays up to 32 entries and lose all entries beyond.", "quantifier": "all versions, dimensions, K, batch sizes, lengths, launch sizes, schedules", "why_tests_cant": "tests run a few versions on small clouds that fit one block", "anchors": ["pytorch3d/csrc/knn/knn.cu:KNearestNeighborIdxCuda", "pytorch3d/csrc/utils/dispatch.cuh:DispatchKernel2D", "pytorch3d/csrc/utils/index_utils.cuh:RegisterIndexUtils"]}
{"id": "C131", "title": "Single-scene datasets, their test batches and loaders, cached training cameras and the depth-based baseline", "statement": "Frame i of each split of a single-scene dataset has the image, camera and mask of the scene's frame that the split lists at place i, for every setting. Without n_known_frames_for_test each test batch is one unknown frame. With it each test batch is the frame to predict followed by distinct known training frames, as many as asked for or all of them, and asking for fewer gives beginnings of the same batches. The masks are taken before the training frames are appended: when the scene has masks, loading any test batch with a known frame raises IndexError, and a frame addressed by a negative index comes with the mask of another frame; without masks the batches load. frames in order lists every frame of the wanted kind once, ascending. Given batches are used for the test loader whatever the other settings, the other loaders follow images_per_seq_options and batch_size. The training cameras are computed once however often they are asked for, also when there are none. The depth-based model returns one render per target, in the order of the batch, of points that come from known views only, at most max_points of them, and raises an error when the batch has no target.", "quantifier": "all scenes, splits, permutations, batches, settings", "why_tests_cant": "tests load one Blender scene without known frames and one batch", "anchors": ["pytorch3d/implicitron/dataset/single_sequence_dataset.py:SingleSceneDatasetMapProviderBase", "pytorch3d/implicitron/dataset/train_eval_data_loader_provider.py:TrainEvalDataLoaderMapProvider", "pytorch3d/implicitron/dataset/data_source.py:ImplicitronDataSource", "pytorch3d/implicitron/models/model_dbir.py:ModelDBIR"]}
{"id": "C132", "title": "packed_to_padded and padded_to_packed for tensors of any shape", "statement": "For an input of any number of dimensions, entry (b, i, ...) of packed_to_padded is entry (first_idxs[b] + i, ...) of the input for i within segment b and zero beyond, with the trailing dimensions unchanged. padded_to_packed over any dimension but the first, also counted from the end, gives at (first_idxs[b] + i, ...) entry i of that dimension of batch element b with the other dimensions in their order. Packing undoes padding for every non-empty tensor and for empty ones of one dimension. Refused are tensors without dimensions and empty tensors with two or more for padding; tensors with fewer than two dimensions, and those with three or more that have no entries, for packing.", "quantifier": "all shapes, values, segment lengths, dimensions", "why_tests_cant": "tests use one to three dimensions, never empty ones", "anchors": ["pytorch3d/ops/packed_to_padded.py:packed_to_padded", "pytorch3d/ops/packed_to_padded.py:padded_to_packed"]}
{"id": "C133", "title": "Pulsar's whole film and its gradients: regions, selection, background, accumulation and normalization", "statement": "The area rendered by a forward pass contains every pixel of every visible sphere, whatever the order in which it is reduced. It is cut into at most three times three regions, each a whole number of blocks; no pixel is written twice and every pixel of the area once. Sorting and selecting keep ids, bounds and draw information aligned and in order of depth, and no sphere with a pixel in a region is left out of it; so each pixel of the film has the value that drawing all spheres there in order of depth gives, and what no region writes is what drawing none gives. The backward pass shoots the same rays and reads the records the forward pass wrote, which do not overlap. In any order of threads the gradient of a sphere is the sum of its contributions, afterwards the mean over the entries that track it and zero if none does. The camera gradient is NaN exactly if no sphere is tracked anywhere, and the mean over tracked spheres of mean gradient times area over a thousand when all of them cover three by three pixels; smaller spheres are not left out, and the number of their pixels enters the divisor instead of one. The debugging pass gives the camera gradient of the first sphere only, processes the pixel asked for on the GPU and in any column but the first on the host, and in the first column all pixels moved down by the row, beyond the film unless the row is the first.", "quantifier": "all spheres, films, orders of threads, tracked entries", "why_tests_cant": "tests render a few spheres and compare gradients numerically", "anchors": ["pytorch3d/csrc/pulsar/include/renderer.forward.device.h:forward", "pytorch3d/csrc/pulsar/include/renderer.backward.device.h:backward", "pytorch3d/csrc/pulsar/include/renderer.norm_sphere_gradients.device.h:norm_sphere_gradients", "pytorch3d/csrc/pulsar/include/renderer.backward_dbg.device.h:backward_dbg"]}
{"id": "C134", "title": "Fly-around videos: poses, predictions, image grids, depth images, frames and video files", "statement": "render_flyaround makes one prediction for each of n poses, at n equal steps from zero that never close the turn, of a batch that is the first frame of the sequence and then different source frames of it; the first frame gets each pose in turn and nothing of an earlier pose is left. Predictions are never overwritten by inputs of the same name. Source images are laid out one after the other in the smallest square grid, clamped, with black images filling it; no source view is an error. Depth images lie in [0,1], are black outside the mask, and map the 2% quantiles, which are values of the image with at most about two percent of the values beyond each, to 0.1 and 0.9 in order of depth. Each video has one frame per pose in order and even sides, paths of different sequences and keys differ. A video made with torchvision has exactly the frames written; one made with ffmpeg also has those older frames of a reused directory whose numbers follow. render_size and video_size are used as width and height while documented as height and width. At most 41 intermediate predictions are shown, the first and the last among them.", "quantifier": "all sequences, poses, images, depth maps, directories, numbers of frames", "why_tests_cant": "tests render no fly-around and write one short video into an empty directory", "anchors": ["pytorch3d/implicitron/models/visualization/render_flyaround.py:render_flyaround", "pytorch3d/implicitron/tools/video_writer.py:VideoWriter", "pytorch3d/implicitron/tools/vis_utils.py:make_depth_image", "projects/implicitron_trainer/visualize_reconstruction.py:visualize_reconstruction"]}
{"id": "C135", "title": "Conditioning networks and encoders, image features and renders of a mesh", "statement": "The colouring network runs exactly if d_in and feature_vector_size add up to what its inputs have: 9 and the features with normals and directions, 6 and the features without normals, for any number of harmonic functions; without view directions harmonic functions make the sum that is needed 6 smaller for each. Colours lie strictly between -1 and 1; with an empty mask the result has three channels whatever d_out, and the mode is not checked. Directions are those of the masked pixels when the batch has one element, else an error. Time encodings have the declared dimension and, with the input appended, differ for different times. The declared width of image features is that of the features returned for any stages in any order exactly if masks have one channel; global average pooling always fails; features of each of S stages have squared length 1/S at each pixel. A normalised mesh lies in the cube [-1,1]^3 and touches its border, but not in the unit sphere as announced; coinciding vertices are an error. Views are equally spaced from one end of the range to the other, so that with the default range the last repeats the first and no other does.", "quantifier": "all widths, modes, masks, times, stages, meshes, numbers of views", "why_tests_cant": "tests run one setting of each network and one mesh", "anchors": ["pytorch3d/implicitron/models/renderer/rgb_net.py:RayNormalColoringNetwork", "pytorch3d/implicitron/models/global_encoder/global_encoder.py:HarmonicTimeEncoder", "pytorch3d/implicitron/models/feature_extractor/resnet_feature_extractor.py:ResNetFeatureExtractor", "pytorch3d/implicitron/dataset/rendered_mesh_dataset_map_provider.py:RenderedMeshDatasetMapProvider"]}
{"id": "C136", "title": "Interface of the sphere renderer to torch: arguments, batches, devices, gradients and information", "statement": "The shape checks of a call accept exactly batched or plain arguments that agree with the positions in number of spheres, channels and camera parameters, except that plain positions may have more than two dimensions. The value checks accept exactly positive focal lengths, sensor widths, percentages, depths in range and so on; an empty batch is always an error. In a batch each element is rendered, forward and backward, with its own positions, colours, radii and camera, but with the opacities of the first element, and with a minimal depth derived from the largest focal length of the batch, so that elements may differ from being rendered alone. After any sequence of calls all renderers are on the device of the last call and there are as many as the largest batch needed; buffers of renderers that are added are on the current device, which may be another. An image of forward is accepted by backward exactly if it has the channels of the renderer. Gradients are returned exactly for the arguments for which they are asked, never for the focal length. Data of fewer than 2^29 floats are copied whole.", "quantifier": "all shapes, values, batches, sequences of calls and devices", "why_tests_cant": "tests render batches whose opacities are all equal or absent, on one device", "anchors": ["pytorch3d/csrc/pulsar/pytorch/renderer.cpp:Renderer::forward", "pytorch3d/csrc/pulsar/pytorch/renderer.cpp:Renderer::arg_check", "pytorch3d/csrc/pulsar/pytorch/tensor_util.cpp:depth_map_from_result_info_nograd", "pytorch3d/renderer/points/pulsar/renderer.py:Renderer"]}
{"id": "C137", "title": "Datasets from a data base, evaluation batches, point clouds of sequences and pictures of texture maps", "statement": "The list file of the provider is the first existing of six places, those relative to the current directory before those in the dataset; if none exists it is an error, and without path and name nothing is looked for. Training, validation and test data are of their own subsets, but with eval_batch_num_training_frames the test data contain the training subsets even if there are no evaluation batches; a list name alone never selects evaluation batches. Without subsets, or testing on training data, one dataset is loaded and used for all three and evaluation batches are never read. Each evaluation batch is kept and followed by different training frames of the sequence of its first frame, as many as asked for or all. The frames of a point cloud are frames of the sequence in the order of the dataset, each once, all or as many as allowed. In pictures of texture maps the circle of a vertex lies where its texture is taken from, so that interpolating the map there is sampling the texture; no circle ever lies outside of the image. Texels are rounded down to bytes; a texel brighter than 1 may become black.", "quantifier": "all files, settings, batches, permutations, maps and coordinates", "why_tests_cant": "tests build providers for one dataset and draw no picture", "anchors": ["pytorch3d/implicitron/dataset/sql_dataset_provider.py:SqlIndexDatasetMapProvider", "pytorch3d/implicitron/dataset/visualize.py:get_implicitron_sequence_pointcloud", "pytorch3d/vis/texture_vis.py:texturesuv_image_PIL", "pytorch3d/renderer/mesh/textures.py:TexturesUV.centers_for_image"]}
{"id": "C138", "title": "Blobs of the data base, models from checkpoints, resuming the NeRF project, and devices", "statement": "Arrays stored in the data base are read back with their shape and their values as float32, for any number of dimensions; a blob that was cut is never read as an array; columns of a fixed shape refuse others. Tuples come back as they were, integers of 32 bits exactly and others are refused; a column with several dimensions accepts a tuple of any shape with the right number of values and returns it in its own shape. The model factory requires the checkpoint of a given epoch even if nothing is resumed, and with force_resume resumes even if resume is off. A checkpoint is loaded exactly if no parameter has another shape: parameters that it has get its values, all others silently keep their initial ones. After any number of interrupted runs of the NeRF project the stored model was trained on all epochs in order, each with the learning rate of its number, except that the epoch of the first resumed checkpoint, and only that, was trained twice; the last epochs are stored only if the last epoch is a multiple of the interval. A GPU that was made explicit stays the same when the current GPU changes.", "quantifier": "all arrays, tuples, blobs, checkpoints, sequences of runs, devices", "why_tests_cant": "tests store arrays of one shape and resume no training", "anchors": ["pytorch3d/implicitron/dataset/orm_types.py:ArrayTypeFactory", "pytorch3d/implicitron/dataset/orm_types.py:TupleTypeFactory", "projects/implicitron_trainer/impl/model_factory.py:ImplicitronModelFactory", "projects/nerf/train_nerf.py:main", "pytorch3d/common/datatypes.py:make_device"]}
{"id": "C139", "title": "Testing a NeRF: checkpoints for other image sizes, films of several runs, and the evaluation of depth-based rendering", "statement": "A checkpoint is loaded for testing exactly if no parameter other than a grid of pixels has another shape, so two checkpoints that differ in the size of the training images only are loaded alike; grids and parameters that are not in the checkpoint keep the values of the new model. A missing checkpoint is reported before the mode is looked at, an unknown mode ends with an error of the configuration. Pictures of different numbers have different names, beyond five digits too. The film made after any number of runs for one checkpoint shows, picture by picture, the last run that was long enough: a shorter run after a longer one ends with old pictures, also of another checkpoint that differs in the extension only. Colours from 0 to 1 fit in a byte, are rounded downwards by less than one step, and only 1 becomes 255. The evaluation of depth-based rendering evaluates both sequences of the first twenty categories and all sequences of the first ten, each once.", "quantifier": "all checkpoints, models, modes, sequences of runs, colours, lists of categories", "why_tests_cant": "nothing tests the scripts", "anchors": ["projects/nerf/test_nerf.py:main", "pytorch3d/implicitron/eval_demo.py:main", "pytorch3d/implicitron/eval_demo.py:evaluate_dbir_for_category"]}
{"id": "C140", "title": "The fast exponential of the sphere renderer: order, errors, and the dependence of weights on the drawing order", "statement": "In exact arithmetic, the fast power of two is positive and never decreasing, with different results for exponents that differ by 2^-23 or more; it is the same number for all exponents below -126, and no number from 130 on; the fast logarithm undoes it to one bit. Its relative error is between 2^(c-127-2^-23) - 1 and 2^(c-127) * 2/(e ln 2) - 1, so the fast exponential of exponents from -86 to 0 is at most 4 percent too small and 2.2 percent too large, and shares of weights computed with it are right up to 6.5 percent for any number of spheres. The exponential of 0 is not 1 but about 0.9713, against the comment in the drawing code: with the true exponential the sum of weights does not depend on the order in which spheres are drawn, with the fast one the farther of two spheres gets strictly less weight if it is drawn first.", "quantifier": "all exponents in the ranges, all lists of spheres", "why_tests_cant": "tests compare renderings with stored images only", "anchors": ["pytorch3d/csrc/pulsar/include/fastermath.h:fasterpow2", "pytorch3d/csrc/pulsar/include/fastermath.h:fasterexp", "pytorch3d/csrc/pulsar/include/renderer.draw.device.h:draw"]}
