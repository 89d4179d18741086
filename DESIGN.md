# Design of the formal model

Target: pytorch3d at the pinned commit in `/repo` (read as text, never built or run).
The list of properties is in `properties.jsonl`; the status of each in `MANIFEST.json`;
wrong-program experiments in `seeded/LOG.jsonl`. The Lean development is in `lean/Verif`. In that log `theorems_failed` lists the
declarations that no longer compile after the edit. A proof can break although its statement stays true, so the list alone does
not show that every named statement is false for the wrong program; an entry found to be of that kind has a `note`. The log has
not been checked for this entry by entry.

## Conventions

* One Lean module per area: `Verif/<Area>.lean` holds the model (definitions, each citing
  the `/repo` file and lines it models), `Verif/<Area>Props.lean` (or a `Spec`/`Theorems`
  section) holds specifications and theorems. Each property theorem is followed by an
  `example` showing that its hypotheses are met by a concrete, non-trivial case.
* Tensors are modelled as lists (ragged batches), functions on indices, or small structures
  (`V2`, `V3`, quaternions, 3x3 matrices as functions `Fin 3 -> Fin 3 -> K`).
* Floating point numbers are modelled by an arbitrary ordered field, or by the reals when
  square roots / trigonometry are needed. Rounding, NaN, infinities, overflow are NOT modelled.
* Errors (`raise`, `AT_ERROR`) are values (`Except`/`Option`). Out-of-bounds accesses of C++
  kernels are modelled explicitly where the property is about memory.
* When the code violates a property, the negation is proved on a concrete witness
  (`..._false` / `..._counterexample`), and the strongest true version is proved with
  suffix `_partial`.

## Trusted base

* Lean 4.33.0 kernel; Mathlib for ordered fields, lists, sums, real analysis.
* Axioms: at most `propext`, `Classical.choice`, `Quot.sound`. No `sorry`, no `native_decide`,
  no `bv_decide`, no added axioms.
* The correspondence between `/repo` code and the Lean definitions, made by reading; each
  definition cites the lines it models and states its simplifications.
* The semantics assumed for torch operators (`cumsum`, `bucketize`, `unique`, `argsort`,
  `scatter_add`, `split`, ...) and C++ library calls (`priority_queue`, `sort`, `lower_bound`,
  `modf`, `lround`) as documented by these libraries.
* Not modelled: autograd machinery, devices and streams, dtype conversions, file system,
  rounding. CUDA kernels are modelled only where a property says so.

## Plan, property by property

| id | what is modelled | how it is proved |
|----|------------------|------------------|
| C01-C03 | `structures/utils.py` functions on lists | induction on the list; round-trip laws; negation with witness for `pad_value` mode |
| C04 | C++ loops of packed/padded kernels as index functions with explicit bounds | segment arithmetic; bilinear form equality |
| C05-C07, C09 | `Meshes` object as a state record with optional caches; each accessor/mutator is a state transition | refinement to the list of (verts, faces); invariant by induction over histories; counterexample for C09 |
| C08 | `_compute_edges_packed` with hash, unique, inverse | injectivity of the hash, sortedness, membership |
| C10-C11 | `submeshes`, `join_meshes_as_scene` | index algebra on lists |
| C12-C13 | `Pointclouds` object as a state record with optional caches | invariant over histories; counterexample for mixed list/padded construction |
| C14-C17 | KNN heap loop, MinK, ball query loop, farthest point loop | loop invariants over streams; uniqueness of the sorted prefix |
| C18 | chamfer on lists over an ordered field | algebra over sums/minima |
| C19-C25 | rotation conversions, so3/se3, Transform3d over the reals | polynomial identities, trigonometric identities |
| C26-C28 | camera projection matrices, unprojection, NDC/screen, look-at | field identities |
| C29-C32 | rasterizer loops, queues, binning, bit mask | loop invariants; order-independence under permutations |
| C33-C34 | geometry_utils.h scalar functions | algebra, minimality proofs, `HasDerivAt` |
| C35-C37 | compositing and blending loops | induction over K, telescoping products, derivatives |
| C38 | sample_pdf worker and thread partition | interval arithmetic; exact characterisation of the out-of-bounds case |
| C39 | raymarcher weights | induction, telescoping |
| C40-C41 | cubify and marching cubes | boundary operator as a chain; finite table check (whole table) plus telescoping sum over the grid |
| C42 | SubdivideMeshes index bookkeeping | stable-sort grouping lemma |
| C43 | trilinear splatting with `modf`/`floor` | real arithmetic; counterexample |
| C44-C45 | Laplacians, gather/scatter | finite sums, permutation invariance, adjointness |

The list grows; later sections record what was found to be false and what is partial.

## What is modelled (by module)

| Module | Code | Not modelled |
|---|---|---|
| `StructUtils` | `pytorch3d/structures/utils.py` | ragged dimensions other than the first, dtype/device |
| `PackedPadded` | `csrc/packed_to_padded_tensor/*` (CPU loops, CUDA kernels as any order of the same writes), `ops/packed_to_padded.py` | floats |
| `Meshes*`, `Edges*`, `MeshGeom*`, `MeshOpsProps` | `pytorch3d/structures/meshes.py`: constructor, all list/packed/padded/auxiliary accessors with their caches, updates, indexing, split/extend/join, submeshes, scene | textures, device moves, aliasing of tensors between objects |
| `Pointclouds*` | `pytorch3d/structures/pointclouds.py`: same scope; `estimate_normals` only as the assignment of a given estimate; `subsample` with the random draw as parameter | devices, dtypes, number of channels, aliasing |
| `TopK` | specification of the K smallest elements of a stream |  |
| `Knn`, `KnnProps`, `KnnBackward` | `csrc/knn/knn_cpu.cpp`, the per-query work of `knn.cu`, `csrc/utils/mink.cuh`, `ops/knn.py` | shared-memory layout of kernel versions 1-3, dispatch macros, NaN distances |
| `Chunks` | grid-stride and chunked loops of the CUDA kernels | thread interleaving (only which items are visited) |
| `Scatter` | `+=`/`atomicAdd` accumulation | rounding of float sums |
| `BallQuery` | `csrc/ball_query/*`, `ops/utils.py:masked_gather` |  |
| `Fps`, `FpsProps` | `csrc/sample_farthest_points/*`, `ops/sample_farthest_points.py` | random choice of the start (a parameter) |
| Compositing, CompositingProps, WeightedSumProps | csrc/compositing/{alpha_composite,weighted_sum,norm_weighted_sum}{_cpu.cpp,.cu}: forward and backward of the three compositors | float rounding, shape checks |
| Blending, BlendingProps, Store | csrc/blending/sigmoid_alpha_blend*, renderer/blending.py (hard, sigmoid, softmax) | float overflow of exp, autograd of the Python blenders |
| SamplePdf, SamplePdfProps | csrc/sample_pdf/sample_pdf_cpu.cpp, sample_pdf.cu, renderer/implicit/sample_pdf.py | random numbers (quantiles are inputs); detaching |
| Raymarching, RaymarchingProps | renderer/implicit/raymarching.py | shape checks, warnings |
| GatherScatter, GatherScatterProps | ops/graph_conv.py, csrc/gather_scatter/gather_scatter.cu | weight initialisation of GraphConv |
| Laplacian, LaplacianProps | ops/laplacian_matrices.py (laplacian, cot_laplacian, norm_laplacian) | sparse tensor layout (a matrix of summed entries instead) |
| Chamfer, ChamferProps | loss/chamfer.py | autograd; cosine similarity is a parameter |
| Mat3, Rotations | transforms/rotation_conversions.py | _index_from_letter errors other than the type; dtype and device; broadcasting of batch dimensions |
| QuaternionProps, EulerProps, AxisAngleProps | the properties of the above |  |
| So3, So3Props | transforms/so3.py, se3.py, math.py | autograd; shapes other than the documented ones |
| Transform3d, Transform3dProps | transforms/transform3d.py (compose, get_matrix, inverse, stack, indexing with integer lists, transform_points, transform_normals, Translate, Scale, Rotate, RotateAxisAngle) | devices and `to`, `clone` (copies), slices and masks as indices, rounding to the dtype, the optional rotation check |
| Cameras, CamerasProps, CameraScreen, CameraPlace | renderer/cameras.py (four camera classes: transforms, projection, unprojection, NDC and screen conversion; look_at and spherical positions) | `__getitem__`, clone/to, broadcasting of constructor arguments (parameters are given per camera), `camera_position_from_spherical_angles` shapes |
| Geometry, GeometryProps, DistanceProps, DistanceGrad | csrc/utils/geometry_utils.h, csrc/utils/vec2.h (all functions; the .cuh twins have the same formulas) | NaN/inf arising from division by zero; ray-triangle helpers of iou_box3d |
| RasterQueue, RasterPoints, RasterPointsGrad | csrc/rasterize_points/rasterize_points_cpu.cpp (naive forward, backward), rasterize_points.cu (CheckPixelInsidePoint, naive kernel, backward), rasterization_utils.*, utils bubble sort | CPU coarse rasterizer |
| RasterMeshes | csrc/rasterize_meshes/rasterize_meshes_cpu.cpp (naive forward with worker threads), rasterize_meshes.cu (CheckPixelInsideFace, naive kernel) | backward pass; sqrt rounding |
| BitMask, RasterCoarse | csrc/rasterize_coarse/bitmask.cuh, rasterize_coarse.cu (bounding box kernels, coarse kernel), fine kernels of rasterize_meshes.cu and rasterize_points.cu | CPU coarse rasterizers (they place bins from -1 to 1 also for non-square images and are not followed by a fine pass) |
| Argsort | `argsort` on the concatenated ids used by subdivide_meshes, as the stable sort | unstable variants |
| Subdivide | ops/subdivide_meshes.py (both paths, features) | textures; negative indices |
| Closed | specification only: closed oriented triangle lists |  |
| Cubify | ops/cubify.py (all of it except device handling) | float32 rounding of the 0.5 weights (exact in floats) |
| PointsVolumes | csrc/points_to_volumes/* (CPU and CUDA, forward and backward), ops/points_to_volumes.py (rescaling, Python splatting path) | shape checks; Python nearest path; Volumes coordinate conversion |
| MarchingTable | csrc/marching_cubes/tables.h and ops/marching_cubes_data.py (all 256 rows) |  |
| MarchingSoup | the triangles of all cells, independent of any implementation |  |
| MarchingCubes | csrc/marching_cubes/marching_cubes_cpu.cpp, marching_cubes_utils.h, ops/marching_cubes.py: Cube, marching_cubes_naive | overflow of int products; NaN |
| MarchingGpu | csrc/marching_cubes/marching_cubes.cu, ops/marching_cubes.py: marching_cubes (duplicates, local coordinates, default iso level) | the limit of 1024 per side; batch loop |
| PackRect | renderer/mesh/utils.py: _try_place_rectangle, pack_rectangles, pack_unique_rectangles | rectangles with a side of length 0 |
| UvSample | torch grid_sample as called in renderer/mesh/textures.py: TexturesUV.sample_textures | batching; the resizing of maps in _pad_texture_maps |
| JoinScene | renderer/mesh/textures.py: TexturesUV.join_scene, _place_map_into_single_map | several maps per mesh (refused by the code) |
| ClipGeom | renderer/mesh/clip.py: ClipFrustum, _get_culled_faces, _find_verts_intersecting_clipping_plane, the triangles of cases 3 and 4 | float32 rounding; barycentric_conversion is always float32 in the code |
| Clip | renderer/mesh/clip.py: clip_faces, convert_clipped_rasterization_to_original_faces | the masked select/reshape of the conversion is modelled entry by entry |
| ClipProps | specification and theorems for the two modules above; rasterize_meshes.py:164-172 (the frustum) | autograd, except for the effect of detach() on one weight |
| Atlas | renderer/mesh/textures.py: TexturesAtlas.sample_textures, faces_verts_textures_packed; io/mtl_io.py: make_mesh_texture_atlas, make_material_atlas, both bilinear interpolations | one channel; dropping of an alpha channel; warnings; PyTorch grid_sample is its documented formula |
| AtlasProps | specification and theorems for Atlas |  |
| FaceAttrs | ops/interp_face_attrs.py; csrc/interp_face_attrs/interp_face_attrs.cu; TexturesVertex.sample_textures | rounding; overflow of the int loop counter for P*D >= 2^31; the CUDA backward only accepts float32 |
| UvMaps | renderer/mesh/textures.py: TexturesUV.sample_textures and faces_verts_textures_packed with maps_ids | resizing of maps of different sizes (_pad_texture_multiple_maps) |
| RasterMeshesGrad | csrc/rasterize_meshes/rasterize_meshes_cpu.cpp: RasterizeMeshesBackwardCpu; rasterize_meshes.cu: RasterizeMeshesBackwardCudaKernel | rounding; conversion of int64_t face indices to int; overflow; face indices are assumed valid |
| PointMesh | csrc/point_mesh/point_mesh_cpu.cpp: HullHullDistanceForwardCpu; point_mesh_cuda.cu: DistanceForwardKernel; csrc/utils/warp_reduce.cuh: WarpReduceMin | NaN; rounding; lanes of a warp read before they write in each reduction step (WarpRace removes this assumption for slot 0, the only one read) |
| PointMeshGrad | point_mesh_cpu.cpp: HullHullDistanceBackwardCpu, PointHullArrayDistance{Forward,Backward}Cpu; point_mesh_cuda.cu: DistanceBackwardKernel, the array kernels; loss/point_mesh_distance.py: point_mesh_edge_distance, point_mesh_face_distance | rounding; index overflow; the int64 checks |
| MeshLosses | loss/mesh_edge_loss.py; loss/mesh_normal_consistency.py with csrc/mesh_normal_consistency; loss/mesh_laplacian_smoothing.py | gradients; rounding; the branch for batches that are completely empty (returns 0); torch.cosine_similarity is taken as dot / (max(|a|, eps) max(|b|, eps)) as in current torch |
| Align | ops/points_alignment.py corresponding_points_alignment, _apply_similarity_transform; ops/utils.py wmean | shape checks and warnings; torch.svd is any function satisfying IsSVD; rounding; gradients |
| SvdExists | (existence of singular value decompositions, so that the hypothesis of Align and Icp can be met) |  |
| Icp | ops/points_alignment.py iterative_closest_point | knn_points is any function with the specification of K=1; update_padded of the result; verbose output; rounding |
| CameraConv | renderer/camera_conversions.py; PerspectiveCameras NDC to screen conversion | batching, device moves, warnings of the pulsar conversion, _pulsar_from_cameras_projection (composition of the other two); rounding |
| Volumes | structures/volumes.py (Volumes, VolumeLocator); renderer/implicit/renderer.py VolumeSampler; torch grid_sample in three dimensions | clone, to, device checks, tuple indices, VolumeLocator.__init__ with lists of sizes, ray bundle validation; rounding |
| CameraRays | renderer/cameras.py unproject_points from NDC, pointwise form of the camera transforms | cylindrical and fisheye cameras |
| Raysampling | renderer/implicit/raysampling.py (all samplers, _safe_multinomial, _xy_to_ray_bundle, _jiggle_within_stratas, _sample_cameras_and_masks, _pack_ray_bundle); CamerasBase.__getitem__ for lists of indices | torch.multinomial, torch.randint and torch.rand are parameters (MultSpec states what is used of the first); devices, deprecated GridRaysampler and NDCGridRaysampler aliases, slices and boolean indices of __getitem__; rounding, NaN |
| Text | Python str.strip, split, join, splitlines by line feed, int(), float(), "%d" and "%.kf" formatting (ties to even on the exact rational value) used by the IO code | underscores in int()/float(), inf/nan literals, other unicode white space, carriage returns, binary floats (a float is the rational number it stands for) |
| ObjIo | io/obj_io.py load_obj, save_obj, _parse_obj, _parse_face, _format_faces_indices, _load_materials, _save, _write_faces, _write_normals; io/mtl_io.py _parse_mtl, _load_texture_images | create_texture_atlas, load_objs_as_meshes, MeshObjFormat; warnings, PathManager, PNG coding (an image is its bytes); reading of a decimal number as float32 is an arbitrary function |
| FloatRound | rounding of rationals to float64 and float32 (nearest, ties to even) as used by torch.tensor and np.loadtxt | overflow to infinity, NaN, signed zero |
| OffIo | io/off_io.py _load_off_stream, _read_verts, _read_faces, _read_faces_lump, _count_next_line_periods, _save_off, _write_off_data | MeshOffFormat.read and save (choice of the texture type); np.loadtxt by its documented behaviour (comments, rows, columns, max_rows); the multiplication by 1/255 in float32 is an arbitrary function |
| PlyIo, PlyBin, PlyLoad, PlyAscii, PlyRound | io/ply_io.py _PlyHeader, _PlyElementType, all _read_ply_* and _try_read_* functions, _load_ply_raw_stream, _get_verts_column_indices, _get_verts, _load_ply, _write_ply_header, _save_ply | MeshPlyFormat, PointcloudPlyFormat (texture files, choice of textures); two elements of one name; out-of-range conversions; np.loadtxt by its documented behaviour; conversion of binary float64 to float32 is an arbitrary function |
| TensorProps | renderer/utils.py TensorAccessor (__getattr__, __setattr__), TensorProperties (__init__, __len__, __getitem__, clone, gather_props), format_tensor, convert_to_tensors_and_broadcast | devices and dtypes; `to`; rows are opaque values and memory is a heap of rows |
| Tens | broadcasting, reductions, views and squeezes of tensors of any shape, as used by the lighting model | strides and memory: values only |
| Lighting, LightPhysics | renderer/lighting.py diffuse, specular, DirectionalLights, PointLights, AmbientLights, materials.py, mesh/shading.py _apply_lighting | numbers are real; shininess is not negative; three channels (one channel only in gouraud_one_channel); the defaults of the constructors |
| Shading | mesh/shading.py phong_shading, flat_shading, gouraud_shading; mesh/shader.py HardDepthShader, SoftDepthShader | the other shaders are compositions of texture sampling (UvSample, FaceAttrs), these functions and blending (Blending); camera centres are an input |
| PlyErrors | io/ply_io.py: files that are rejected | - |
| FaceAreasGrad | csrc/face_areas_normals backward, CPU and CUDA | numbers are real; faces below the clamp of 1e-6 |
| SampleUniform, SampleMesh | ops/sample_points_from_meshes.py | torch.rand is the uniform distribution and multinomial takes each index with a probability proportional to its weight and none of weight zero (assumed of torch); isfinite; the colours of the textures |
| SymEig | common/workaround/symeig3x3.py | exact real arithmetic; the residual of the second and third eigenvectors; gradients |
| PointNormals | ops/points_normals.py, ops/utils.py get_point_covariances | rows of padding points; torch.linalg.eigh is a contract (`IsEigh`, shown to be satisfiable); the choice of knn_points among equal distances is a parameter |
| Textures | renderer/mesh/textures.py TexturesBase, TexturesVertex, TexturesAtlas; structures/meshes.py what is done with textures | devices, storage sharing, trailing dimensions of list elements; TexturesUV containers; the meshes of a batch are their elements and whether the other sort of element is there |
| Shapes | utils/ico_sphere.py, utils/torus.py | devices, float rounding; subdivision as in Subdivide (C42) |
| Taubin | ops/mesh_filtering.py taubin_smoothing | float rounding; NaN is none, and a product of a stored entry with NaN is NaN; the Meshes object of the result (textures are dropped) |
| VertAlign | ops/vert_align.py | grid_sample as in UvSample (C59); dtype and device checks |
| Splatter | renderer/splatter_blend.py, the cache in renderer/mesh/shader.py SplatterPhongShader | real arithmetic; screen coordinates of the fragments are inputs (C27); gradients; clamping of depths; the stencil of unfold is read off its documentation |
| PluggableIo | io/pluggable.py, the format selection of io/pluggable_formats.py, obj_io.py, off_io.py, ply_io.py | contents of the files (C40–C45, C74); which textures a format writes and reads is a table read off the format classes |
| PointsRender | renderer/points/renderer.py, compositor.py, arguments of rasterize_points.py and rasterize_meshes.py, renderer/utils.py parse_image_size | log2 exact; the coarse rasterizer (C30); pulsar |
| CameraAlign | ops/cameras_alignment.py; uses the model of corresponding_points_alignment (Align) | torch.svd is any function returning a singular value decomposition; attributes other than R and T |
| FishEye | renderer/fisheyecameras.py: projection, unprojection, both Newton iterations, check_input, indexing | number formats; is_perspective, in_ndc and the other constants; the wrong factors of the derivative with a single radial parameter |
| CameraUtils | renderer/camera_utils.py | the attribute degrees of FoV cameras (shared, not batched), devices |
| IoU | ops/iou_box3d.py, csrc/iou_box3d/iou_utils.h, iou_box3d_cpu.cpp; the normals of iou_utils.cuh; the same operations without square roots and the proof that they agree | rounding |
| IoUClip | csrc/iou_box3d/iou_utils.h: clipping of triangles by planes | rounding |
| IoUProps | ops/iou_box3d.py: checks; equal, nested and disjoint parallelepipeds | the limit of 100 triangles of the CUDA code; the volume of the intersection of boxes in general position as a measure |
| Harmonic | renderer/implicit/harmonic_embedding.py, common/linear_with_repeat.py, implicitron/models/renderer/base.py (bins, conical frustums), renderer/implicit/utils.py (ray points) | rounding, gradients |
| ImpRaymarch | implicitron/models/renderer/raymarcher.py | noise on the densities, negative surface_thickness, broadcasting of unequal shapes |
| RayRefine | implicitron/models/renderer/ray_point_refiner.py, multipass_ea.py, renderer/implicit/sample_pdf.py (the checks) | random number generation, return_weights, gradients |
| PnP | ops/perspective_n_points.py | rounding, gradients, the warning about points behind the camera; eigensolver, SVD and pseudo-inverse by their defining equations (solutions exist: `eigOk_exists`, `pinvOk_exists`); the claim of the documentation that four points suffice in general |
| Gltf | io/experimental_gltf_io.py:_read_header, _read_chunks, _GLTFLoader, _GLTFWriter | JSON, PNG and base64 as a codec with a hypothesis that it reads what it wrote; float32 bit patterns by enc/dec; names, min/max, target, samplers; negative JSON indices; float64 tensors, GPU; grayscale images; join_meshes_as_scene in MeshGlbFormat.read |
| GltfProps | bytes of accessors, round trips of saved meshes |  |
| GltfScene | the queue of nodes, transforms of nodes, examples |  |
| SphereTrace | implicitron/models/renderer/ray_tracing.py; the masks, points and _sample_network of sdf_renderer.py | n_steps = 0; random numbers are an argument; the rgb network, eikonal points, normals; chunking of the SDF evaluations |
| SphereTraceProps | enclosure by induction over the iterations, sampler, secant, sphere intersection, implicit differentiation | gradients except those of _sample_network |
| CircleFit | implicitron/tools/circle_fitting.py: fit_circle_in_2d, _signed_area, fit_circle_in_3d | lstsq is any minimiser, eigh any orthonormal eigenvectors in ascending order; fewer than three points (ValueError); batch dimensions except the cross product without dim |
| CircleFitProps | similarity, signed area, generated points, planes and circles in space, examples |  |
| ViewPool | implicitron/models/view_pooler: view_sampler.py, feature_aggregator.py (reduction, masks, dimensions, angle weights) | projection and grid sampling are a function; string ids are given by their hashes; zero cameras; identity aggregators; concatenation of the feature dictionary |
| Metrics | implicitron/tools/metric_utils.py | crop of eval_depth; broadcasting; batches are separate images; empty tensors; zero denominators of disparities |
| SceneSampler | implicitron/dataset/scene_batch_sampler.py | random choices are relations (every outcome numpy may give), not distributions; images_per_seq of at most 0; rounding of timestamps |
| FrameCrop | implicitron/dataset/utils.py (boxes, crops, resizing, cameras), frame_data.py crop_by_metadata_bbox_, _crop_by_bbox_ | masks with channels; values of bilinear interpolation; reading of files; collate |
| PulsarRender | csrc/pulsar/include/closest_sphere_tracker.device.h, blending in renderer.draw.device.h, loop of renderer.render.device.h | order of writes of GPU threads within a round, 32 bit counters, invalid spheres in the list, floats |
| PulsarDraw | renderer.draw.device.h up to the blending, renderer.get_screen_area.device.h, bounds of renderer.calc_signature.device.h, block test of renderer.render.device.h | float rounding, range of ushort, early return for centres behind the camera plane |
| PulsarGrad | backward part of csrc/pulsar/include/renderer.draw.device.h, renderer.norm_sphere_gradients.device.h | camera gradients in orthogonal projections, floats |
| PulsarCam | renderer/points/pulsar/renderer.py (_transform_cam_params), csrc/pulsar/pytorch/camera.h and camera.cpp, pixel ray of renderer.render.device.h, renderer/points/pulsar/unified.py | axis-angle parameters, gradients, devices, 32 bit integers |
| VoxelGrid | implicitron/models/implicit_function/voxel_grid.py (full, CP and VM grids, resolution changes, crop_local, crop_self, locator, get_grid_points), utils.py (interpolate_line/plane/volume) | initialization of values, hooks of load_state_dict, floats |
| Binvox | datasets/r2n2/utils.py:158-350 (_read_binvox_header, read_binvox_coords, _compute_idxs, align_bbox) | files, bytes as numbers, floats |
| ShapeNet | datasets/shapenet_base.py, lists of shapenet_core.py and r2n2.py, datasets/utils.py (collate_batched_meshes), r2n2/utils.py (compute_extrinsic_matrix, voxelize, project_verts, BlenderCamera) | files, JSON, rendering itself, 32 bit floats |
| ImpRays | implicitron/models/renderer/ray_sampler.py (settings, mask sampling, compute_radii, AdaptiveRaySampler), base.py (ImplicitronRayBundle lengths, get_padded_xys), tools/camera_utils.py (depth bounds, volumetric overlaps, alignment) | random numbers, jitter_extrinsics, EvaluationMode plumbing, floats |
| RastGlue | renderer/mesh/rasterizer.py:171-277, renderer/points/rasterizer.py:105-170 (cameras, transform, inferred settings) joined with RasterMeshes | eps, MeshRasterizerOpenGL, parameters of cameras given by keyword, fisheye projection |
| ImpChunks | implicitron/models/utils.py (chunk_generator, apply_chunked, preprocess_input, weighted_sum_losses), tools/utils.py (cat_dataclass, get_inlier_indicators), tools/image_utils.py (mask_background) | tqdm, log messages, tensor background colours (view(1,3,1,1) whatever dim_color), floats |
| PclTools | implicitron/tools/point_cloud_utils.py, rasterize_mc.py, depth_cleanup.py | features of get_rgbd_point_cloud beyond their order, rasterize_sparse_ray_bundle (its radius uses xys.shape[1]: the number of rows, not of points, for (B,H,W,2) bundles), floats |
| Loaders | implicitron/dataset/data_loader_map_provider.py | workers, collation, the random generator (any draw allowed); SceneSampler models SceneBatchSampler |
| TrainStats | implicitron/tools/stats.py (AverageMeter, Stats.update, new_epoch, add_log_vars) | sec/it, printing, plots, JSON, synchronize_logged_vars, floats |
| AutoDec | implicitron/models/global_encoder/autodecoder.py | initialisation of the codes, gradients, calculate_squared_encoding_norm, floats |
| Decoders | implicitron/models/implicit_function/decoding_functions.py (ElementwiseDecoder, MLPWithInputSkips) | MLPWithInputSkips initialisation, layer/activation modules of torch beyond their maps, TransformerWithInputSkips, floats |
| Trajectory | implicitron/tools/eval_video_trajectory.py | the plane and circle fits (CircleFit models them), the random rotation for refining, intrinsics, the SVD; floats |
| JsonIndex | implicitron/dataset/json_index_dataset.py (loading aside: filters, indices, subsets, join, batches), dataset_base.py (sequence_frames_in_order) | files, gzip, blobs and frame data, random choices (any permutation), category statistics |
| SqlIndex | implicitron/dataset/sql_dataset.py (SqlIndexDataset: filters, index, look-ups, frames in order, eval batches) | the database engine beyond rows of a table in order, blobs, frame data, ORM types, random choices (any sample) |
| MapProvider | implicitron/dataset/dataset_map_provider.py (DatasetMap.join), json_index_dataset_map_provider.py (set names, restriction), json_index_dataset_map_provider_v2.py (_extend_test_data_with_known_views) | files, path managers, category lists, random choices (any permutation) |
| WarpRace | csrc/utils/warp_reduce.cuh: WarpReduceMin (every interleaving of the lanes within a step); csrc/utils/index_utils.cuh: RegisterIndexUtils | tearing of a single word, compiler reordering between steps (memory is volatile), NaN; WarpReduceMax (no kernel uses it) |
| Checkerboard | utils/checkerboard.py | devices (off the CPU tensors of two devices are stacked, which fails), colour channels, floats |
| Checkpoints | implicitron/tools/model_io.py | serialisation of tensors (contents are opaque), file systems beyond a map from names to contents, concurrent writers |
| ImpConfig | implicitron/tools/config.py (_Registry, creation of replaceable members, remove_unused_components) | dataclass expansion, OmegaConf types and interpolation, expand_args_fields of plain fields |
| OptFactory | projects/implicitron_trainer/impl/optimizer_factory.py, training_loop.py (checkpointing and purging) | the optimizers themselves, torch schedulers beyond the chainable form of MultiStepLR and LambdaLR, accelerate |
| ViewMetrics | implicitron/models/metrics.py (camera choice for packed rays, colour losses, eikonal, total variation, depth penalty, stage names) | sampling of images at rays, mask losses and depth errors (in Metrics), floats |
| VoxelImplicit | implicitron/models/implicit_function/voxel_grid_implicit_function.py (forward, scaffold, cropping, epochs) | CUDA streams, embeddings and decoders (functions), the locator (VoxelGrid) |
| NvsEval | implicitron/evaluation/evaluator.py, evaluate_new_view_synthesis.py | values of the metrics (in Metrics), resizing of renders, LPIPS, visualisation, JSON dumps, rounding |
| ImpModels | implicitron/models/generic_model.py, overfit_model.py, renderer/base.py (ImplicitFunctionWrapper), the hypernetwork cache of scene_representation_networks.py | networks, rays, renderers and losses (modelled elsewhere), image features, visualisation |
| SrnIdr | implicitron/models/renderer/lstm_renderer.py, implicit_function/scene_representation_networks.py (widths), idr_feature_field.py, implicitron/third_party/hyperlayers.py, pytorch_prototyping.py (FCBlock) | LSTM arithmetic beyond its range, layer norms, gradients, random initial values |
| NerfProject | projects/nerf/nerf/raysampler.py, raymarcher.py, nerf_renderer.py, dataset.py, eval_video_utils.py (circle) | networks, training loop, downloads, randomness (arguments) |
| GlRaster | renderer/opengl/rasterizer_opengl.py, opengl_utils.py (device store, copy) | the GL driver: `bary`, `frag`, `draw` state what the GL specification guarantees of an exact implementation and are trusted; edges are closed; ids stay naturals (a float32 in the code); EGL and CUDA contexts, orthographic FoV cameras |
| NerfFields | implicitron/models/implicit_function/utils.py, neural_radiance_field.py, decoding_functions.py (transformer) | values of networks (functions), layer norms, dropout, gradients |
| PlotlyVis | vis/plotly_vis.py | plotly itself, colours, hover text, layout arguments; subsampling permutations are arguments |
| GeomGpu | csrc/utils/geometry_utils.cuh, csrc/utils/float_math.cuh | floats, in particular NaN turned into 0 by `__saturatef` |
| KnnLaunch | csrc/utils/dispatch.cuh, csrc/utils/index_utils.cuh, csrc/knn/knn.cu (launch, work of threads) | 64-bit overflow, devices and streams |
| SingleScene | implicitron/dataset/single_sequence_dataset.py, train_eval_data_loader_provider.py, data_source.py (training cameras), models/model_dbir.py | loading of scenes, numpy and torch permutations (arguments) |
| PackWrap | ops/packed_to_padded.py (shapes, checks) | types of values, autograd |
| PulsarPass | csrc/pulsar/include/renderer.forward.device.h, renderer.create_selector.device.h, renderer.fill_bg.device.h, renderer.calc_gradients.device.h (addresses, accumulation), renderer.backward.device.h, renderer.backward_dbg.device.h, renderer.norm_*_gradients.device.h | rounding of atomic sums, 16-bit overflow, timing, the contribution of a tracked sphere (`Verif.PulsarGrad`) |
| Flyaround | implicitron/models/visualization/render_flyaround.py, tools/video_writer.py, tools/vis_utils.py, projects/implicitron_trainer/visualize_reconstruction.py (sizes) | encoders, visdom, interpolation of values, the default seed hash(sequence_name) |
| CondNets | implicitron/models/renderer/rgb_net.py, global_encoder/global_encoder.py, feature_extractor/resnet_feature_extractor.py, dataset/rendered_mesh_dataset_map_provider.py (normalisation, views) | weights, torchvision layers, image rescaling, rendering |
| PulsarTorch | csrc/pulsar/pytorch/renderer.cpp, util.h, camera.cpp, tensor_util.cpp, renderer/points/pulsar/renderer.py (arguments, gradients) | kernels (see PulsarRender), streams, logging |
| SqlProv | implicitron/dataset/sql_dataset_provider.py, dataset/visualize.py (frames), vis/texture_vis.py, renderer/mesh/textures.py:centers_for_image | path managers, SQL (see SqlIndex), drawing |
| Storage | implicitron/dataset/orm_types.py, projects/implicitron_trainer/impl/model_factory.py, projects/nerf/train_nerf.py (resuming, schedule, checkpoints), common/datatypes.py | SQLAlchemy, pickle, bits of float32, the networks |
| FastMath | csrc/pulsar/include/fastermath.h, the running sum of renderer.draw.device.h:290-322 | rounding of float operations and constants, flushing of subnormal numbers, colours |
| NerfTest | projects/nerf/test_nerf.py, implicitron/eval_demo.py | networks, statistics, ffmpeg beyond reading numbered pictures up to the first missing one, directories of paths |

## Behaviour found that differs from what one would expect

Each item is a theorem (usually a negative one or an exact characterisation) in the module named.

* `list_to_padded` with `pad_size` 0 silently drops one-row elements (`StructUtilsProps`).
* `padded_to_packed` with a `split_size` larger than the width returns rows of the next element; with
  `pad_value` it loses genuine rows equal to the pad value (`StructUtilsProps`).
* `Meshes.scale_verts_` keeps cached normals, which is wrong for some factors (`scaleVerts_normals_stale`).
* A `Meshes` batch in which no mesh has both vertices and faces has empty packed views and counts
  although `verts_list` is not empty (`faceless_batch`).
* `get_mesh_verts_faces(N)` and `get_cloud(N)` raise `IndexError`, not `ValueError` (check is `> N`).
* `Pointclouds` with list points and padded normals/features: a padded access made first loses them
  for ever (`mixed_normals_lost`), `normals_list()` first keeps them (`mixed_normals_kept`).
* `Pointclouds` with padded points and list normals: `normals_padded()` is `None`; `clone()` drops the
  normals (`padded_points_list_normals`).
* `Pointclouds.update_padded` without new normals before any padded access: `normals_padded()` of the
  result is `None` (`update_padded_loses_normals`).
* A list batch of clouds without any point has no packed/padded normals and an empty first-index
  tensor (`pointless_batch`).
* `Pointclouds.subsample` keeps the points in the order of the random draw, not in increasing order
  (`subsample_spec`).
* Joining a batch with normals and an empty selection raises (`joinBatch_mixed`).
* `knn_points` with `K = 0` on the CPU is undefined behaviour (`knnRow_zero`), so is `MinK` (`minK_zero`); on ties CPU and CUDA may return different neighbours (`minK_tie_differs`).
* `ball_query` with a negative radius: result depends on `skip_points_outside_cube` (`ballRow_negative`).
* `sample_farthest_points` repeats indices for coincident points (`fps_duplicates`); on CUDA squared distances above 1e10 are clamped (`fps_clamp`).
* `sample_farthest_points` on CUDA with fewer than 8 points per cloud launches 4 or 2 blocks instead of N: clouds beyond are not sampled (`fpsCuda_small_missing`), for N = 1 blocks run out of bounds (`fpsCuda_small_oob`). The `switch` cases 4 and 2 pass `threads` as the grid size.
* The alpha gradient of alpha_composite loses everything behind an entry with alpha = 1: the division by `1 - a + kEps` is off by the factor kEps/(1-a+kEps), which is 1 at a = 1 (`alphaComposite_gradAlphas_error`).
* The backward of norm_weighted_sum ignores the clamp of the total weight at kEps; below it the alpha gradient is off by sum g*N/kEps^2 (`normWeightedSum_gradAlphas_below`).
* hard_rgb_blend is documented to return alpha = 1 everywhere, it returns 0 for background pixels (`hardBlend_eq`).
* SamplePdfCpu with 5 rows and at least 4 threads processes row 5, out of bounds (`threads_oob`).
* SigmoidAlphaBlendBackwardCuda divides by the batch size before checking for an empty batch (read from the source; the launch code is not modelled).
* EmissionAbsorptionRaymarcher accepts thickness 0 (raises, or renders 0 for one-point rays) and negative thickness (`thickness_zero`, `thickness_negative`).
* On CUDA gather_scatter of a graph without edges launches a grid of 0 blocks (invalid configuration) while the Python path returns zeros.
* Rows of `laplacian` for vertices without edges sum to -1, not 0 (`laplacian_rowSum`).
* chamfer_distance with all-zero weights and no batch reduction returns an (N, N) tensor, and a normal loss without normals (`chamfer_zero_weights`).
* chamfer_distance to an empty cloud is 0 (`oneWay_empty`), so the zero distance does not mean equal sets when one is empty.
* chamfer_distance of Pointclouds with normals and point_reduction="max" raises AssertionError instead of the documented ValueError (in the model; not a theorem).
* matrix_to_axis_angle(fast=True) divides by the norm of the concatenation of all half-turn axes of the batch (`matToAxisAngleFast_batch`), and by zero when an axis is orthogonal to x (`fastN_perp`).
* rotation_6d_to_matrix is not a rotation for vectors below the normalisation threshold 1e-12 (`rot6d_small`).
* se3_exp_map documents log(exp(x)) = x for angles below 2 pi; it fails for every angle above pi (`se3Log_se3Exp_false`).
* se3_log_map does not pass eps to _get_se3_V_input, so equal non-default eps do not round-trip (`se3_eps_ignored`).
* so3_relative_angle(R, R) is positive with the default cos_bound (`relativeAngle_self_pos`).
* RotateAxisAngle.__getitem__ always raises (`getitem_rotateAxisAngle`); Translate/Scale/Rotate.__getitem__ return float32 objects (`getitem_dtype`).
* Rotate(R).inverse() transposes without checking that R is orthogonal (`rotate_inverse_wrong`).
* FoVPerspectiveCameras.unproject_points ignores keyword arguments such as znear or fov (`fovPersp_unproject_ignores`, `fovPersp_roundtrip_fails`); R and T work only because get_world_to_view_transform stores them in the object (`kwargs_persist`).
* FoVOrthographicCameras.unproject_points fails on unbatched (P, 3) tensors (`fovOrtho_unbatched`).
* FoVOrthographicCameras with scale_z different from 1 does not map the near plane to depth 0 (`fovOrtho_scale_near`).
* look_at_rotation with up parallel to the viewing direction has determinant 0 (`lookAt_parallel`, `lookAtSpherical_above`), in spite of the replacement branch.
* PointLineDistanceBackward (2D) has no degenerate-segment branch: it divides by |v1-v0|^2 = 0, and for 0 < |v1-v0|^2 <= 1e-8 it is not the derivative of the forward pass.
* PointLine3DistanceBackward splits the gradient of |p-v1|^2 evenly between v0 and v1 for short segments, and evaluates it at v0 (`pointLine3Backward_short`).
* PointTriangle3DistanceForward underestimates by the factor (|n|/(|n|+1e-8))^2 and its inside test is widened on one side by 1e-8/|n|^2, so the result depends slightly on the vertex order (`usePlane_iff`, `pointTri3_bounds`).
* normalize_backward is not the exact derivative of n/(|n|+1e-8) (`pointTri3Backward_deriv`).
* With equal depths the GPU queue keeps a different element than the CPU queue (`gpu_ties`).
* GPU CheckPixelInsideFace does not recompute q_max_z when a clipped neighbour overwrites the farthest face with a nearer one; a later face then evicts the wrong entry (`gpu_stale_max`).
* Points with negative radius are drawn by the naive kernel (it squares the radius) and lost by the coarse one (`negative_radius`).
* After the first overflow of a bin all later chunks of that bin are dropped, even if they would fit, because the counter keeps growing (`fit_prefix`).
* `cubify` raises for grids with a dimension of size 1 (`conv3d` kernel larger than input), and counts a value equal to the threshold as occupied although the documentation says larger.
* `SubdivideMeshes` with homogeneous topology returns features of shape (N, V+E, D), not packed as documented; a batch without faces fails.
* points_to_volumes uses `modf` (towards zero) where floor is needed: locations in (-1,0) extrapolate (weights 3/2 and -1/2 at a border point, `negative_inside`), locations in (-2,-1] subtract density from the first voxel (`mass_profile`), so points slightly outside the volume corrupt it; the Python path uses floor and is right (`python_spec`).
* The Python path of points_to_volumes ignores align_corners and rescale_features, multiplies by the mask instead of testing it, and uses the strides of grid_sizes instead of those of the volume. `volume_features=None`, documented, fails in the C++ path. grid_sizes larger than the volume is not checked there and writes out of bounds.
* Nearest mode without align_corners drops points exactly on the border of the cube (`lround` rounds -0.5 to -1).
* marching_cubes (C++ and Python): `tri` and `ps` are not cleared when a triangle is degenerate, so all later triangles of the cell are dropped and the surface has holes (`cpu_hole`: 6 of 16 triangles kept); CUDA drops nothing and returns degenerate triangles instead.
* The C++ vertex ids are computed in float: from 2^24 grid points on different grid edges get the same id (`hashF_collision`), which merges distant vertices. CUDA computes them in integers (`hash_inj`).
* EPS = 1e-5 is absolute: in fields of small magnitude every vertex snaps to a grid point.
* On CUDA a volume with a side of 1 launches an empty grid, which is an error (`gpuRaw_none`); the CPU returns an empty mesh.
* TexturesUV.join_scene raises ZeroDivisionError when all maps are single texels and align_corners is True, the default (`joinScene_zeroDivision`); also when all meshes share one map with a side of one texel.
* With sampling_mode="nearest" join_scene changes the texel chosen at positions half way between two texels, because ties go to even indices and the offset may be odd (`joinScene_nearest_tie`).
* _get_culled_faces indexes `face_verts[:, axis]`, which is vertex `axis`, not coordinate `axis`: with cull_to_frustum=True faces that are in view are dropped (`cull_drops_visible`) and faces out of view are kept (`culled_iff`).
* clip_faces raises IndexError if the last mesh of the batch has no faces and anything is clipped or culled (`clip_error`).
* In _find_verts_intersecting_clipping_plane w3 is detached and w2 is not, so the gradient of the depth of p5 is 1 - w3 although the depth is constant (`detach_gradient`).
* TexturesAtlas.sample_textures: at lattice points inside the edge v0-v1 (b0 R and b1 R integers, b0 + b1 = 1) the texel read is the one mirrored along the edge (`atlas_seam`). Barycentric coordinates of -1/R or less wrap around or raise (`atlas_negative`).
* make_mesh_texture_atlas with texture_wrap="repeat" takes each vertex modulo 1, so a face crossing a period is compressed into the opposite part of the image (`repeat_crossing`), and whether u = 1 becomes 0 depends on other faces (`repeat_depends`). The first drawing in make_material_atlas exchanges cells 5 and 7.
* _bilinear_interpolation_vectorized raises on u = 1 or v = 1 although [0, 1] is documented (`bilinearVec_error`).
* TexturesUV.sample_textures with maps_ids indexes the padded table with packed face indices: wrong maps for ragged batches (`mapId_padding`, `mapId_wrong`); M = 1 divides 0/0; align_corners=False mixes maps (`maps_mixed`).
* interpolate_face_attributes on the CPU fails for F = 0 even if all fragments are background (`interpPy_noFaces`).
* RasterizeMeshesBackwardCudaKernel (rasterize_meshes.cu:528) calls BarycentricClipBackward with the coordinates before the perspective correction (`b_w`), the CPU (rasterize_meshes_cpu.cpp:499) with those after it. With perspective_correct and clip_barycentric_coords (the defaults for soft rasterization with perspective cameras) the CUDA gradient of pixels outside their face is wrong (`cuda_wrong`: -2/9 instead of -1/4 for a depth, and 0 instead of -1/16 for an x coordinate, up to the regularization); inside the face the difference cancels up to a factor (A + 1e-8)/A (`cuda_inside`).
* pack_rectangles with a rectangle of size zero would read `occupied[-1]`; join_scene of a batch of one raises ValueError ("Cannot pack less than two boxes").
* HullHullDistanceForwardCpu (point_mesh_cpu.cpp:183) advances the batch entry with `if (a_n == a_batch_end)` instead of `while`: after an empty entry in the first input (an empty cloud, or a mesh without faces in face_point_distance) all rows of later entries are compared with candidates of an earlier entry (`cpu_empty_wrong`). CUDA is not affected.
* Ties: the CPU returns the last minimal index (it compares with `<=`), CUDA the one of the lowest lane, so idx and gradients can differ (`tie_differs`).
* Empty second input entry: distance FLT_MAX (constant) and index 0, and the backward pass adds a gradient for row 0, which belongs to another batch entry (`empty_target_grad`, `empty_target_witness`). With no candidates in the whole batch the CPU backward pass reads row 0 of an empty tensor.
* mesh_laplacian_smoothing with method cot is not invariant under translations if there are vertices in no face: each contributes the norm of its position (`lapRow_cot_isolated`); the same holds for uniform and vertices without edges.
* corresponding_points_alignment multiplies both centred clouds by the weights, so the covariance uses squared weights: for general weights rotation and scale are not the weighted least squares solution (`align_weights_witness`).
* iterative_closest_point builds its mask only if some pair has different sizes. For a padded batch in which each pair has equal sizes the padding rows (at the origin, matched to the first target point) take part: aligning {5} with {7} in such a batch gives the translation 9/2 (`icp_padding_witness`).
* iterative_closest_point never reports convergence once the rmse of a pair is exactly zero, the relative decrease being 0/0 (`icp_zero_stuck`, `icp_self`).
* opencv_from_cameras_projection reads focal length and principal point as NDC values whatever in_ndc() is: screen space cameras are converted to a different projection (`toOpencv_screen_witness`). A camera given by K is also read through its default focal length.
* cameras_from_opencv_projection drops the skew entry of camera_matrix without an error (`skew_dropped`).
* Volumes.__getitem__ builds the result with the default align_corners=True and copies only sizes and transform: indexing a batch with align_corners=False silently changes the coordinates of the voxels and the sampling (`getitem_spec`, `getitem_align_witness`).
* Volumes.update_padded compares the stored grid sizes with the size of the new tensor, so it raises a ValueError for every batch with padding, although its documentation says it is for heterogeneous batches; add_pointclouds_to_volumes ends with this call and fails for them too (`updatePadded_iff`).
* A volume with a dimension of one voxel has NaN coordinates: the grid is rescaled by (1-1)/(1-1) (`coordLocal_unit`).
* VolumeSampler passes local coordinates, which refer to the own size of each volume, to grid_sample on the padded tensor: volumes smaller than the padded size are sampled at wrong places (`sampler_padding_witness`). Without align_corners the coordinate grid of such volumes is wrong as well (`coord_padding_witness`).
* Without align_corners neighbouring voxels are voxel_size (S-1)/S apart in world coordinates, not voxel_size (`coordWorld_false`).
* volume_translation given as a tensor of shape (1,), a documented form, raises an IndexError (`voxel_forms`).
* _safe_multinomial documents that it samples with replacement when a row has fewer positive weights than samples, but when more samples than columns are requested its second call without replacement raises also if no row is left for it; n_rays_per_image larger than the number of pixels raises a RuntimeError (`safe_error`, `forward_too_many`). A mask with an empty image asks for zero samples and raises as well.
* With unit_directions=True the depths are still used as lengths: the points are at distance `lengths` from the origin, not at that z-coordinate as RayBundle documents (`unit_spec`).
* With n_rays_total a camera is asked for as many pixels as the most often sampled camera gets, so it can receive repeated pixels although it has enough pixels for its own rays (hypothesis of `forward_total`).
* save_obj with verts_uvs and faces_uvs but without texture_map drops the texture coordinates without an error (`obj_uvs_dropped`).
* The OBJ parser reads index 0 as the first element; a face with index -1 (padding) is saved as 0 and comes back as 0 (`obj_index_zero`).
* Relative (negative) indices are resolved against the number of elements of the whole file, so elements after the face shift them (`obj_relative_total`); a face whose three relative normal or texture indices are all -1 is taken as one without normals or texture (`obj_relative_last`).
* Lines with a tab after the keyword ("v\t1 2 3") are ignored silently (`obj_tab_ignored`).
* save_obj truncates the texture to bytes instead of rounding, so repeated saving can only darken it (`obj_texture_floor`); the default of 6 decimals turns coordinates below 5e-7 into 0 (`obj_tiny`).
* IO.save_mesh accepts include_textures but never passes it to the format.
* An OFF file without a meaningful line (an empty file, or "off" alone) sends _load_off_stream into an endless loop, since readline() at the end of a file returns b"", which counts as an empty line (`off_empty_hangs`).
* An OFF file saved from a mesh without vertices cannot be loaded (`off_no_verts`); a comment after the last face is an error (`off_trailing_comment`).
* OFF face indices are read as float32: indices above 2^24 are silently changed (`off_big_index`), fractional ones truncated (`off_fraction_index`).
* The test for integer vertex colours counts decimal points of the first line: integer colours beside integer coordinates are not scaled, colours in [0,1] beside integer coordinates are divided by 255 (`off_int_colors`, `off_float_colors`).
* decimal_places is ignored for face colours in OFF files (`off_roundtrip`, `expected`).
* A PLY file that ends before `end_header` sends _PlyHeader into an endless loop (`header_truncated`): readline() returns b"" for ever and empty lines are skipped.
* If a PLY vertex has exactly three properties of one type, they are returned in file order even when the header names them z, y, x; with different types they are found by name (`ply_three_columns`).
* In ascii PLY files a scalar property of type "float32" or "float64" next to a list is parsed with int(), so 0.5 is an error, while "float" and "double" work (`ply_float32_mixed`).
* A blank line between faces is accepted if all faces have the same number of vertices and an error otherwise (`ply_blank_line`).
* "property float foo bar x" is accepted as a float property x; "property list uchar" raises IndexError instead of ValueError (`ply_property_words`).
* PLY files saved without vertices lose faces and normals (`ply_binary_roundtrip`, `backFaces`).
* A property given once in a batch of N is an expanded view, so `obj[i].name = v` changes every element and assigning to a slice of at least two elements is a RuntimeError (`set_repeated`, `set_repeated_slice`, `new_set_repeated`).
* A tensor passed to a TensorProperties constructor is kept, and assignment through `obj[i].name` changes the tensor of the caller (`new_set_tensor`).
* gather_props leaves the length of the object unchanged although its properties have another batch size (`gather_spec`).
* The dtype argument of TensorProperties.__init__ is ignored.
* Batched materials are wrong in Phong and flat shading: materials.diffuse_color (N, 3) is multiplied with (N, H, W, K, 3) and so lines up with K. With K = 1 the colours have shape (N, H, W, N, 3) and the displayed one uses material 0 in all images (`phong_materials`); with K not 1 or N it is a RuntimeError (`phong_materials_error`). Ambient colours and shininess are right.
* shininess = 0 gives 0 ** 0 = 1: full specular colour on back faces and empty fragments, against the comment "No specular highlights if angle is less than 0" (`color_empty_zero`).
* A viewer behind the surface can see a highlight: only the side of the light is tested (`gloss_viewer_behind`).
* Gouraud shading with one colour channel: squeeze() turns (V, 1) into (V,), and the product with (V, 1) vertex colours is (V, V) (`gouraud_one_channel`).
* Depth shaders with FoV cameras of batch size N > 1: `zbuf[mask] = zfar` and `ones(N, H, W, 1) * zfar` use zfar of shape (N,) (`hard_batch_error`, `hard_batch_order`, `softDepth_batch`).
* flat_shading tests pix_to_face == -1 and the other shaders pix_to_face < 0 (`gatherFace_negative`).
* SoftGouraudShader and SoftDepthShader ignore a blend_params keyword argument (read, not modelled).
* face_areas_normals backward, grad_v1_z: `(bx - cx * (bx * cy - by * cx) * inv_norm_2)` should have `cy` (face_areas_normals_cpu.cpp:181, face_areas_normals.cu:183). The gradient of face normals is wrong (`backward_wrong`; exact difference `backward_deriv`).
* sample_points_from_meshes(return_textures=True) with an empty mesh in the batch is a RuntimeError: sample_face_idxs has num_valid_meshes rows and is viewed as len(meshes) rows (`textures_spec`).
* symeig3x3 regularises by an absolute eps: the eigenvalues of small matrices are taken from the diagonal (`small_limit`), and the normal of a flat neighbourhood with a spread below about 2 cm (in metres) points 35 to 55 degrees away from the plane normal (`flat_normal`, `square_normal`). It is the default routine of estimate_pointcloud_normals.
* estimate_pointcloud_local_coord_frames with disambiguation returns frames of determinant -1 always (`frame_disamb`); symeig3x3 returns frames of either sign (`eigvecs_ortho`).
* The sign disambiguation counts the point itself (projection 0) as not positive: with as many neighbours in front as behind and odd K both signs are flipped, so that the result depends on the sign of the eigenvector (`disamb_sign`).
* Meshes checks a texture only against the number of meshes and the largest count: textures whose per-mesh sizes are permuted are accepted and shift the packed colours (`mismatch_accepted`, `attach_accepts`).
* A padded TexturesVertex/TexturesAtlas whose list view has been asked for before it is passed to Meshes keeps the padding rows in its packed view (`stale_list`).
* textures[int] leaves a bare int in _num_verts_per_mesh/_num_faces_per_mesh; clone (vertex), extend and further indexing raise (`int_item`).
* A batch without a valid mesh: meshes[i] with textures raises IndexError (`dead_index`), TexturesAtlas.atlas_list raises AttributeError (`atlas_list_empty`), and joining a face-less mesh with a padded TexturesVertex drops its features silently (`dead_join`).
* Meshes(verts=[], faces=[], textures=TexturesVertex([])) raises ValueError, because the empty padded tensor has four dimensions; the same with TexturesAtlas([]) is accepted; textures of batches whose meshes are all without elements raise (`empty_batches`).
* ico_sphere(0): the constants of the source are not of unit length (squared length 1.00005098, `ico_not_unit`); levels ≥ 1 are.
* torus with two sides or two rings is accepted and is not a manifold (`torus_two`).
* taubin_smoothing makes every vertex that belongs to no face NaN, after one iteration (`one_number`); it returns a mesh without textures.
* vert_align(…, return_packed=True) for Pointclouds keeps the padding: the code asks for an attribute that only Meshes has (`align_packed_clouds`).
* SplatterBlender: `_offset_splats` numbers the neighbours column by column, `F.unfold` in `_compute_occlusion_layers` row by row; the front/back decision for a neighbour is made with the depths of the transposed one (`blend_eq`, `scene_dimmed`).
* SplatterBlender: at the image border the kernel weights of the missing neighbours are lost; a covered image has alpha < 1 there (`plain_corner`, `corner_half`).
* SplatterPhongShader keeps the blender of its first call; other batch or image sizes then raise in gather or view (`cached_iff`).
* IO.save_mesh does not pass include_textures on; it has no effect (`save_textures`).
* The OFF reader ignores include_textures=False (`off_textures`).
* The documentation example IO().save_pointcloud(…, "output_pointcloud.obj") raises ValueError: only PLY writes clouds (`clouds_only_ply`).
* PointsRenderer with per-point radii divides the squared distances by the (N, P) tensor broadcast over (N, K, H, W) (`tensor_radius`).
* PointsRenderer ignores raster_settings given to forward when it computes the weights; they become negative for larger radii (`override_negative`).
* The background colour of the compositors is used only where no point was hit; faint points over a white background are blended with black (`covered_background`).
* parse_image_size formats its error message with `%` and a list: wrong lists raise TypeError (`parseImageSize_ok`).
* corresponding_cameras_alignment, mode extrinsics, can return a reflection; the documentation says it cannot (`extrinsics_reflection`).
* corresponding_cameras_alignment, mode extrinsics: the scale is divided by max(variance, eps) with an absolute eps, so small scenes are not recovered (`extrinsics_scale`).
* corresponding_cameras_alignment, mode centers, with estimate_scale and one camera gives scale 0 (`centers_collapse`).
* FishEyeCameras: the field list says focal_length and use_tin_prism, the attributes are focal and use_thin_prism: cameras[i] has focal length 1 and thin prism on (`getItem_cam`).
* FishEyeCameras with world_coordinates=True and more than one camera always raises (`world_batch`).
* FishEyeCameras.unproject_points gives NaN at the principal point (`center`), and undoes the radial distortion even with use_radial=False (`no_radial`).
* FishEyeCameras: `nonzero_mask * a / d` is NaN where d = 0 (`theta_nan`).
* FishEyeCameras: any number of radial parameters other than 1 and 6 raises; a single one is used for all six powers (`radial_params`).
* TriNormal and PlaneNormal (iou_utils.h) never update max_dist: the normal is that of the last pair of vertices, not of the pair with the largest product as the comment says (`triNormal_eq`, `planeNormal_eq`). The CUDA code keeps maxDist in an int.
* box3d_overlap: aEpsilon and dEpsilon are absolute. Small boxes are counted twice (`small_boxes`), flat disjoint boxes overlap (`flat_boxes`).
* _check_coplanar multiplies (1, 18) by (18, 1): the deviations of the six faces are added up and can cancel (`check_sum`).
* camera_to_eye_at_up followed by look_at_view_transform does not return a camera whose R is not a rotation (`lookAt_no_scale`).
* HarmonicEmbedding: the documentation has exp(+0.5 f^2 cov), the code exp(-0.5 f^2 cov), which is right (`gauss_sincos`).
* AccumulativeRaymarcherBase: the documented bound `weights.sum() <= 1` fails for surface_thickness 2 (`ea_thick`); the true bound is thickness * mask (`ea_thick_sum`). blend_output multiplies the features by the opacity a second time (`forward_uniform`).
* CumsumRaymarcher has background_opacity = 0 by default: the last point never contributes (`last_ignored`).
* RayPointRefiner.forward ignores its arguments blurpool_weights and sample_pdf_padding.
* efficient_pnp: in the third case a negative product of coordinates is clamped to eps before the division, so the third starting coordinate is b0 b2 / eps (`coords3_wrong`). err_2d is documented as a sum and is a weighted mean. The weights enter the linear system squared.
* GLB: the texture data follow the 6 bytes per face of the indices without padding, so a textured mesh with an odd number of faces cannot be loaded with textures (ValueError "Misaligned data") (`glb_vertex`, `glb_uv`).
* GLB: indices are written as uint16 and wrap silently from 65536 vertices on (`glb_geometry`, `back_eq`). faces_uvs are not written; the faces take their place on loading (`glb_uv`).
* GLB: saving a TexturesUV mesh on the CPU flips the verts_uvs of the mesh in place; the second save writes flipped coordinates (`glb_twice`).
* GLB: vertex colours with fewer than three channels give a file that cannot be opened (struct.error), more than three are regrouped in threes (`openFile_save`, `save_ok`).
* GLTF: matrix nodes are applied transposed: the translation is never applied (`matrix_node_wrong`). Interleaved attributes that end with the buffer cannot be read (`interleaved_fails`). A cyclic graph of nodes loops forever (`cycle_never_ends`). Integer COLOR_0 values are not normalised (`colour_not_normalised`).
* SDF renderer: if no ray of the batch hits, the returned mask is one everywhere instead of zero, so the mask of a missing ray depends on the other rays (`masks_empty`, `mask_depends`).
* RayTracing: the point of a ray that misses the bounding sphere is the world origin or the camera centre, depending on whether another ray meets the sphere (`miss_point`).
* RayTracing: a function that overestimates distances, for example a scaled SDF, lets rays jump over thin objects (`scaled_misses`); unfinished rays are right only up to the samples (`eval_spec`).
* fit_circle_in_2d/3d: with n_points = n only n - 1 different points are generated, since linspace(0, 2 pi, n) contains both ends (`generated_closed`).
* get_rotation_to_best_fit_xy: torch.cross without dim takes the batch dimension for a batch of exactly three point clouds (`crossRows_three`).
* View pooling: MAX of negative features is 0 as soon as the target view is excluded (its zeroed features give big_M = 0) (`maxR_negative`); MAX with angle weights above one exceeds the largest feature (`maxR_exceeds`). get_aggregated_feature_dim counts STD_AVG once for all feature tensors (`aggDim_right`).
* metrics: calc_bce with pred_logits clamps the logits with the bounds meant for probabilities (`logits_clamped`, `logit_half`); rgb_l1 is three times the mean absolute error (`rgbL1_channels`); eval_depth with use_disparity ignores get_best_scale=False (`disparity_rescales`); the best scale is wrong for small predictions (`clamp_hurts`); PSNR of an empty mask is 100 (`psnr_empty`); huber(0) > 0 (`huber_bounds`); iou of two empty masks is 0 (`iou_empty`).
* scene_batch_sampler: a sequence whose first frame number is negative raises IndexError (`split_negative`); the assertion "Empty segments after culling" is unreachable, an empty sequence raises ValueError from max() (`segments_no_assertion`, `cull_spec`); category-aware batches may be short although there are enough sequences (`batch_short`).
* FrameData._crop_by_bbox_: rescale_bbox gets its resolutions in the wrong order, so a depth map of another size than the image is cropped with the box multiplied instead of divided (`rescale_wrong`, `cropDepth_fails`).
* get_bbox_from_mask never ends for a mask of one pixel (`bbox_single`); a mask one pixel wide gives a box that get_clamp_bbox refuses (`clampBbox_squashed`); boxes are rounded half to even, not floored (`clampRound_spec`); the camera of a resized frame is off by less than a pixel (`resize_camera_error`).
* pulsar: max_n_hits is documented as a hard limit on the number of hits per ray but is only looked at when more than 64 spheres were buffered (`few_all`, `hits_bound`); percent_allowed_difference bounds the effect of one sphere, not of all spheres left out (`left_out_one`, `left_out_many`); the forward info holds the closest spheres and their depths, the documentation of renderer.py promises those with the highest contribution and their weights (`tracker_closest`, `info_spec`).
* pulsar: a sphere touched with weight 0 in front of everything can turn a pixel black through the lower bound on the denominator (`color_clamped`).
* pulsar get_screen_area: for a ball that reaches behind the camera plane tan of an angle beyond 90 degrees is taken and the area lies beside the sphere (`area_wrong`); rays near the silhouette of a large sphere are left out (`ray_left_out`); orthogonal projection has an inconsistency of half a pixel (`ortho_offset`, `ortho_border`).
* pulsar: the position gradient of a perspective camera is 0/0 (NaN) if the centre lies exactly on the ray of a pixel (`center_nan`); with a rotated orthogonal camera it is multiplied component by component instead of by the transposed rotation (`posO_iff`); gradients of spheres are averages over pixels, not sums (`normalized_average`).
* pulsar unified.py: the y component of the principal point has the wrong sign and scale (`unified_pixel`); the comparison of focal lengths is one-sided and rejects equal focal lengths in landscape images while accepting unequal ones (`focal_check`); point radii depend on znear (`radius_persp`, `radius_fov`); `afov *= pi / 180` changes cameras.fov in place (`fov_twice`); one camera for several clouds is an IndexError although documented (`one_camera`).
* voxel_grid.py: crop_local without align_corners gives a lower bound of -1 at the border, which counts from the end, so only the last voxel is kept (`crop_unaligned`); crop_self sets the extents from the exact points although whole voxels were kept (`cropSelf_wrong`) and resizes with align_corners; get_grid_points ignores the translation (`gridPoint_translation`) and uses the resolution of x for all axes (`gridAxis_other`); change_resolution passes align_corners=True by default, which modes nearest and area reject.
* r2n2/utils.py: a binvox grid without ones raises IndexError (`computeIdxs_empty`); empty runs of ones break the result (`empty_run`); the total length is not checked (`x_in_range`); integer_division=False no longer reproduces the documented offsets.
* R2N2: models with different numbers of views are rendered with cameras of other models without error (`pictures_right`, `pictures_wrong`); return_voxels without renderings always fails (`voxels_need_images`); load_textures=False makes collate_batched_meshes raise (`collate_without`); elevation is above the xz plane, not the documented xy plane (`extrinsic_spec`); BlenderCamera.is_perspective() is False although its projection is perspective.
* ray_sampler.py: AdaptiveRaySampler takes the depth bounds of the first camera for the whole batch, so rays of a farther camera miss the scene (`adaptive_first`); cone radii are for depth one while directions have unit length, so off-axis cones are too wide (`cone_too_wide`); images of one row or column divide by zero (`pixelSize`); cones with n_rays_total raise TypeError (`bundle_points`); get_padded_xys returns the number of rays as num_inputs, documented as the number of cameras (`padded_inputs`).
* camera_utils.py: volumetric_camera_overlaps with ray angles is not 0 for disjoint cameras (`overlap_disjoint`); jitter_extrinsics multiplies the logarithm of a random rotation, of angle up to pi, by max_angle, so angles go up to pi times max_angle (not modelled).
* mesh/rasterizer.py: FishEyeCameras and BlenderCamera say that they are not perspective, so depths and attributes inside faces are interpolated without correction and wrong unless the vertices are equally deep (`uncorrected_depth`); PerspectiveCameras have no znear, so faces that cross the camera plane vanish by default (`resolve_default`, `behind_dropped`); cameras=None in a call hides the cameras of the object (`transform_error`).
* models/utils.py: packed bundles are never chunked, so the chunk size does not bound memory, and get only the first camera (`packed_chunks`); a bundle without rays divides by zero (`chunks_error`). tools/utils.py: cat_dataclass drops a field that is None in the first chunk though later ones have it (`catF_leaf`).
* point_cloud_utils.py: rendered depths are not divided by the opacity (`depth_flat`). rasterize_mc.py: the returned mask is the opacity squared (`mc_mask`). depth_cleanup.py: NDC coordinates are used as grid coordinates, wrong for images that are not square (`wide_shift`); points outside the image mark pixel 0 (`outside_first`).
* data_loader_map_provider.py: conditioning of the training set may condition a frame on itself (`train_itself`); sets smaller than a batch give no batches (`batches_none`); no unseen frames makes the known loader fail.
* stats.py: AverageMeter.update with n > 1 records val/n in the history but averages val*n (`meter_inconsistent`); add_log_vars compares names with the stat sets, not with the names logged, so adding twice counts twice (`addVars_twice`, `twice_counts`).
* autodecoder.py: a batch that fails for lack of codes still uses codes for its earlier keys (`getAll_spec`), as do unknown keys at evaluation; integer inputs bypass the key map (`forward_ids`); ignore_input returns one code whatever the batch size (`forward_ignore`); loading with fewer codes than keys raises StopIteration (`load_save`).
* decoding_functions.py: the activations of the MLP are swapped: the last layer always is ReLU and last_activation is on the hidden layers (`forward_nonneg`, `identity_affine`, `swapped`); a skip at layer 0 makes every call fail (`skip_zero`).
* eval_video_trajectory.py: traj_offset_canonical is added in world coordinates for knots (`offset_world`, `offset_not_local`); the circle repeats its first camera, so scaling moves its centre (`circle_mean`, `scaleAbout_center`); an up vector in the fitted plane becomes zero (`disambiguate_spec`, `up_in_plane`).
* json_index_dataset.py: join does not shift the numbers in eval_batches (`join_eval`, `join_wrong`), which DatasetMap.join does for several categories; sequence_frames_in_order with a subset filter pairs indices with the wrong frames (`inOrder_filter`, `inOrder_wrong`) and fails for partly missing timestamps (`inOrder_none`); subsets keep stale eval_batches (`subset_stale`); `subsets` does not count as filtering (`subsets_missing`).
* sql_dataset.py: sequence_frames_in_order pairs the rows of the table with the places of the index and pairs wrong frames whenever they are ordered differently, and does not sort by time (`aligned_iff`, `misaligned`, `not_sorted`); get_frame_numbers_and_timestamps returns (row, time, number) (`frameNumbers_first`, `frameNumbers_wrong`); n_frames_per_sequence=0 always raises (`nPer_zero`); entries without annotation are kept or removed depending on the threshold (`unannotated`); frames listed in two subsets fail or cannot be read (`listed_twice`, `getKey_twice`); eval batches are filtered by the union of the picks and not by limits (`eval_union`, `eval_limits`); a picked category without frames is a KeyError (`eval_key`); pick_frames_sql_clause does not count as filtering (`clause_not_filtered`).
* dataset_map_provider.py: joining categories with test_on_train adds the other categories three times (`join_shared`), and an iterator argument is used up by the train sets (`join_iter`).
* json_index_dataset_map_provider_v2.py: known views may repeat frames of the batch (`extend_again`); a test sequence without training frames is a KeyError (`extend_key`).
* warp_reduce.cuh: lanes race in every step, but slot 0 does not depend on the order (`warp_sync`), which removes the assumption formerly made for PointMesh; other slots do (`order_matters`). index_utils.cuh: register arrays longer than 32 lose elements (`reg_beyond`).
* model_io.py: epochs of nine digits are never found (`big_epoch`); any_path returns a model that does not exist (`any_missing`); saving without optimizer leaves a stale one that is loaded (`stale_optimizer`); an interrupted safe save mixes new and old files (`safe_interrupted`).
* config.py: a class with two replaceable bases is registered for only one (`two_bases`); a later registration of a name replaces the earlier silently (`registerAll_spec`); a class registered after its owner was expanded can be found but not created (`late`); remove_unused_components removes the arguments of a member in use whose name continues that of a replaceable (`prefix_removed`) or raises KeyError (`prefix_error`, `twice_error`).
* optimizer_factory.py: resuming with MultiStepLR, the default, applies the passed milestones twice (`multi_resume`, `multi_resume_iff`); "child.self" is ignored though documented (`child_self`); a shared parameter is listed twice (`shared_twice`); a missing optimizer file is an error though documented to start anew (`optState_last`). training_loop.py: store_checkpoints_purge = p keeps p + 1 checkpoints and 0 keeps all (`train_keeps`, `train_zero`).
* metrics.py: sample_packed picks the images of the cameras twice, so packed rays are compared correctly only if the first cameras were all sampled and fail otherwise (`packed_sorted`); a mask of mass below one scales the error down (`clampMean_const`); density_tv of a constant grid is sqrt(1e-5) (`gridTv_ge`).
* voxel_grid_implicit_function.py: scaffold_occupancy_chunk_size splits coordinates, 1 and 2 always fail (`chunk_spec`); an even pooling window changes the resolution (`poolSize_spec`); `_scaffold_ready` is not saved, so a resumed run may fail to crop and does not filter (`resume_fails`); when everything is filtered the widths are 1 and 3 (`forward_scaffold`). No code in the repository other than tests calls `subscribe_to_epochs`, so training never computes a scaffold.
* evaluator.py: hiding the target raises TypeError when depth, foreground or crop is missing (`evalFrame_missing`). evaluate_new_view_synthesis.py: the documented check of known frames does not exist (`checks_ok`); a batch without depth after one with depth is a KeyError and metrics absent from the first batch are dropped (`average_key`); table columns are mislabelled when a subset lacks a subsubset (`header_wrong`).
* overfit_model.py: the hypernetwork cache is never cleared (`overfit_stale`); IdrFeatureField cannot be built (`overfit_classes`); the coarse class gets the arguments of the fine one (`overfit_coarse`). generic_model.py: pooled features are not announced to IdrFeatureField (`idr_no_pool`); arguments stay bound after a failed pass (`forwardGeneric_bound`).
* lstm_renderer.py: `_init_recurrent_weights` does nothing (`recurrent_nothing`). scene_representation_networks.py: SRNRaymarchHyperNet ignores out_features (`hyper_fails`). idr_feature_field.py: 0 in skip_in always fails (`idr_skip_first`), n_harmonic_functions_xyz = -1 gives no rows (`idr_raw`), the default geometric initialisation divides by zero with skip layers (`init_skip_nan`) and with harmonics leaves a field of the first coordinate only (`init_blind`).
* projects/nerf: several cameras in several chunks lose rays (`renderAll_loses`); rays cached while training are incomplete (`cached_training`); weights do not sum to one (`weights_one`); heights that are no multiple of the number of cameras break the dataset (`splitImages_few`); sizes whose two factors average to one are not resized (`rescale_gap`); the circular trajectory repeats its first camera (`circle_closed`).
* rasterizer_opengl.py: pix_to_face of a batch is not packed, so shaders read faces of the first mesh for all meshes (`local_packed`, `shader_first`); zbuf is the view depth and −1 in the background, against two docstrings (`raster_face`, `raster_background`); faces beyond zfar vanish, unlike in MeshRasterizer (`far_dropped`); the near plane is not znear (`near_bounds`); max_faces_opengl of later rasterizers is ignored and larger meshes overrun the buffer (`calls_first`); `to` returns None, so `rasterizer = rasterizer.to(device)` loses it.
* neural_radiance_field.py: with several cameras `directions @ camera.R` fails or rotates row i by camera i (`rotate_many`); utils.py: a wrong number of global codes can be accepted (`broadcast_wrong`). decoding_functions.py: `skip_dim` of the transformer is not used and growing widths fail (`transformer_runs`).
* plotly_vis.py:541: `extend_struct=False` compares the index of the structure, not of the subplot (`noextend_all_or_none`); repeated titles lose elements (`scenes_distinct`); several traces make non-cubic axes (`bounds_cube` is for one); degenerate axes divide by zero (`scale_degenerate`); ray bundles start with an uninitialised point (`rayLines_junk`).
* geometry_utils.cuh and geometry_utils.h take different ends of a short edge (`pointLine3_short`, `pointTri3_tiny`), and their gradients are those of the mean of both.
* knn.cu: 32-bit row offsets (`offsets_ok_iff`); lengths greater than the padded size are not checked (`too_long`). dispatch.cuh: values out of range run nothing and report nothing (`dispatch2_spec`). index_utils.cuh: entries beyond 32 are lost silently (`reg_lost`).
* single_sequence_dataset.py: masks are not extended with the training frames, so with masks and n_known_frames_for_test every test batch with a known frame raises IndexError (`batch_fails`) and negative indices give the mask of another frame (`wrong_mask`). model_dbir.py: no target is an error in torch.cat (`dbir_error`).
* packed_to_padded.py: empty tensors with two or more dimensions are refused by reshape (`padded_errors`, `packed_errors`).
* renderer.norm_sphere_gradients.device.h: spheres smaller than 3x3 pixels are meant to be left out of the camera gradient but are summed, and their pixel count enters the divisor (`cam_small`); no tracked sphere gives NaN (`cam_nan`). renderer.backward_dbg.device.h: camera gradient of the first sphere only (`dbg_cam`); on the host a pixel of the first column is not recognised as one (`dbg_host`).
* video_writer.py: with ffmpeg, frames left in a reused cache directory are appended to the video (`video_spec`). visualize_reconstruction.py: render_size and video_size are documented as height x width but used as width, height (`renderSize_exchanged`). render_flyaround.py: no source view is an error in torch.cat (`stack_spec`). vis_utils.py: depth maps of fewer than 20 pixels raise IndexError (`basicsFac_error`), with at most one valid pixel depth images are white (`depth_empty`), a trailing slash of the directory gives no environment name (`visdomEnv_spec`), later servers are ignored (`connect_once`).
* rgb_net.py: mode no_view_dir with harmonic functions has a first layer wider than its input (`coloring_runs`); an empty mask gives three channels whatever d_out (`coloring_empty`). resnet_feature_extractor.py: global_average_pool calls mean(dims=...) and fails (`avgPool_fails`); masks of the documented shape (B, 3, H, W) are two channels wider than get_feat_dims (`featDims_ok`). rendered_mesh_dataset_map_provider.py: the mesh does not fit in the unit sphere (`not_in_sphere`); with azimuth_range 180 first and last view coincide (`azim_spec`).
* csrc/pulsar/pytorch/renderer.cpp: in a batch every element is rendered with the opacities of the first element, the pointer is not advanced (`batch_uses`); the default of min_depth is taken from the largest focal length of the batch (`batch_uses`); plain positions with four and more dimensions are accepted (`plain_ok`); an empty batch is an error (`value_empty`); buffers of additional renderers are allocated on the current GPU (`wrong_device`). camera.cpp: the check that pixels are square is one-sided (`pixelsAgree_spec`).
* sql_dataset_provider.py: with eval_batch_num_training_frames the test set contains training frames even without evaluation batches (`build_subsets`); subset_list_name alone never loads evaluation batches (`name_no_batches`); the branch that lists available subsets is unreachable (`no_assertion`); a file relative to the current directory hides that of the dataset (`listsFile_spec`). texture_vis.py: circles of coordinates out of range are announced to be visible outside of the image but are never there (`center_inside`).
* train_nerf.py: stats.epoch of the checkpoint is the number of the finished epoch when nothing was resumed, so the first resumed run trains this epoch again, later ones do not (`sessions_spec`, `resume_repeats`); the final model is stored only if max_epochs - 1 is a multiple of the interval (`last_stored`). model_factory.py: resume_epoch must exist even with resume off (`factory_spec`); after a failed strict load missing parameters keep their initial values silently (`loadModel_spec`). orm_types.py: a tuple of shape (9,) or (1, 9) is accepted for a rotation column of shape (3, 3) (`tuple_accepted`).
* fastermath.h: fasterexp(0) is about 0.9713, not 1, although renderer.draw.device.h:308-310 relies on exp(0) = 1, so the weights depend on the drawing order beyond rounding (`exp_zero`, `draw_order`; `draw_true` for the intended behaviour). Likewise the fast logarithm of one is about 0.0397; over all normal numbers it is between 0.022 too small and 0.04 too large (`log_error`).
* test_nerf.py: the directory of the pictures is never emptied, so the film of a shorter run ends with pictures of an earlier one (`film_runs`, `film_stale`); an unknown mode formats `cfg.test_mode`, which does not exist, instead of `cfg.test.mode` (`start_spec`); the number of fine points is read from `n_pts_per_ray` (in train_nerf.py too), so `n_pts_per_ray_fine` has no effect (read, not proved).
