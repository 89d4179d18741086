{
 "claims": [
  {
   "property": "C01",
   "status": "proved",
   "theorems": [
    "P3D.StructUtils.listToPacked_error_iff",
    "P3D.StructUtils.listToPacked_roundtrip",
    "P3D.StructUtils.listToPacked_index"
   ],
   "note": "Model of list_to_packed / packed_to_list on ragged lists of rows."
  },
  {
   "property": "C02",
   "status": "proved",
   "theorems": [
    "P3D.StructUtils.listToPadded_size",
    "P3D.StructUtils.listToPadded_size_reject",
    "P3D.StructUtils.listToPadded_size_silent_loss",
    "P3D.StructUtils.listToPadded_auto",
    "P3D.StructUtils.listToPadded_auto_reject",
    "P3D.StructUtils.listToPadded_roundtrip",
    "P3D.StructUtils.listToPadded_equisized_agrees"
   ],
   "note": "Only the first dimension is ragged in the model. Exception found: a one-row element is silently dropped when pad_size is 0."
  },
  {
   "property": "C03",
   "status": "proved",
   "theorems": [
    "P3D.StructUtils.paddedToPacked_split",
    "P3D.StructUtils.paddedToPacked_split_leaks",
    "P3D.StructUtils.paddedToPacked_padValue",
    "P3D.StructUtils.paddedToPacked_padValue_roundtrip",
    "P3D.StructUtils.paddedToPacked_padValue_lossy",
    "P3D.StructUtils.paddedToPacked_both_rejected"
   ],
   "note": "split_size mode is the inverse when sizes fit; false beyond the width (rows of the next element leak). pad_value mode loses genuine rows equal to the pad value (witness), so the round trip is proved only without such rows."
  },
  {
   "property": "C04",
   "status": "proved",
   "theorems": [
    "P3D.PackedPadded.packedToPadded_correct",
    "P3D.PackedPadded.paddedToPacked_correct",
    "P3D.PackedPadded.packedToPadded_roundtrip",
    "P3D.PackedPadded.packedToPadded_adjoint",
    "P3D.PackedPadded.packedToPadded_overflow"
   ],
   "note": "For every schedule of the copies (CPU order and any GPU interleaving); overflow of a too small max_size is characterised."
  },
  {
   "property": "C05",
   "status": "proved",
   "theorems": [
    "P3D.Meshes.meshes_list_history",
    "P3D.Meshes.meshes_padded_history",
    "P3D.Meshes.meshes_real_history",
    "P3D.Meshes.geomOps_transInv",
    "P3D.Meshes.run_refines"
   ],
   "note": "Meshes as a state machine with caches; every history of calls refines the cache-free specification. Textures, devices and tensor aliasing are not part of this model."
  },
  {
   "property": "C06",
   "status": "proved",
   "theorems": [
    "P3D.Meshes.runAll_refines",
    "P3D.Meshes.meshes_list_normals_history",
    "P3D.Meshes.run_rejects",
    "P3D.Meshes.ofPadded_rejects",
    "P3D.Meshes.vertexNormals_scale",
    "P3D.Meshes.scaleVerts_normals_stale"
   ],
   "note": "Same refinement with updates. scaleVerts_normals_stale is the witness for the exception on cached normals; vertexNormals_scale shows when it cannot happen."
  },
  {
   "property": "C07",
   "status": "proved",
   "theorems": [
    "P3D.Meshes.getItem_spec",
    "P3D.Meshes.getItem_err",
    "P3D.Meshes.split_spec",
    "P3D.Meshes.joinBatch_spec",
    "P3D.Meshes.split_join",
    "P3D.Meshes.extend_spec",
    "P3D.Meshes.getMeshVertsFaces_spec",
    "P3D.Meshes.inv_clone"
   ],
   "note": "Textures and custom normals are not carried by the model of these operations (the code drops custom normals in __getitem__ and extend)."
  },
  {
   "property": "C08",
   "status": "proved",
   "theorems": [
    "P3D.Meshes.edges_mem",
    "P3D.Meshes.edges_strict",
    "P3D.Meshes.faceToEdge_spec",
    "P3D.Meshes.toMesh_spec",
    "P3D.Meshes.edges_of_mesh",
    "P3D.Meshes.batch_edges"
   ],
   "note": "For every order in which torch.sort may put equal keys."
  },
  {
   "property": "C09",
   "status": "proved",
   "theorems": [
    "P3D.Meshes.faceless_batch",
    "P3D.Meshes.faceless_batch_counterexample",
    "P3D.Meshes.padded_all_pad",
    "P3D.Meshes.inv_computePacked"
   ],
   "note": "The inconsistency is characterised for all batches in which no mesh has both vertices and faces."
  },
  {
   "property": "C10",
   "status": "proved",
   "theorems": [
    "P3D.Meshes.submesh_spec",
    "P3D.Meshes.submeshes_spec"
   ],
   "note": "Without textures."
  },
  {
   "property": "C11",
   "status": "proved",
   "theorems": [
    "P3D.Meshes.joinScene_spec",
    "P3D.Meshes.scene_triangles"
   ],
   "note": "Without textures."
  },
  {
   "property": "C12",
   "status": "proved",
   "theorems": [
    "P3D.Clouds.clouds_list_history",
    "P3D.Clouds.clouds_padded_history",
    "P3D.Clouds.run_refines",
    "P3D.Clouds.runAll_refines",
    "P3D.Clouds.mixed_normals_lost",
    "P3D.Clouds.mixed_normals_kept",
    "P3D.Clouds.padded_points_list_normals",
    "P3D.Clouds.update_padded_loses_normals",
    "P3D.Clouds.pointless_batch",
    "P3D.Clouds.rejects",
    "P3D.Clouds.mk_rejects"
   ],
   "note": "Pointclouds as a state machine with caches. Devices, dtypes, channel-count checks and tensor aliasing are not part of the model."
  },
  {
   "property": "C13",
   "status": "proved",
   "theorems": [
    "P3D.Clouds.getItem_spec",
    "P3D.Clouds.getItem_err",
    "P3D.Clouds.split_spec",
    "P3D.Clouds.joinBatch_spec",
    "P3D.Clouds.joinBatch_mixed",
    "P3D.Clouds.split_join",
    "P3D.Clouds.extend_spec",
    "P3D.Clouds.getCloud_spec",
    "P3D.Clouds.subsample_spec",
    "P3D.Clouds.subsample_err",
    "P3D.Clouds.joinScene_spec",
    "P3D.Clouds.insideBox_spec"
   ],
   "note": "The random draw of subsample is a parameter (any list of distinct positions)."
  },
  {
   "property": "C14",
   "status": "proved",
   "theorems": [
    "P3D.Knn.knnRow_spec",
    "P3D.Knn.knnRow_nearest",
    "P3D.Knn.knnCloudCpu_spec",
    "P3D.Knn.sortRow_spec",
    "P3D.Knn.knn_points_sorted",
    "P3D.Knn.sortRow_unsorted",
    "P3D.Knn.gatherRow_spec",
    "P3D.Knn.knnRow_zero",
    "P3D.Knn.pdist_eq"
   ],
   "note": "Arithmetic in an ordered field."
  },
  {
   "property": "C15",
   "status": "proved",
   "theorems": [
    "P3D.Knn.minK_spec",
    "P3D.Knn.KeepsSmallest.keys",
    "P3D.Knn.minK_sort",
    "P3D.Knn.knnRowGpu_nearest",
    "P3D.Knn.minK_zero",
    "P3D.Knn.minK_tie_differs"
   ],
   "note": ""
  },
  {
   "property": "C16",
   "status": "proved",
   "theorems": [
    "P3D.BallQuery.ballRow_spec",
    "P3D.BallQuery.mem_hits",
    "P3D.BallQuery.hits_increasing",
    "P3D.BallQuery.ballRow_negative",
    "P3D.BallQuery.maskedGather_spec"
   ],
   "note": ""
  },
  {
   "property": "C17",
   "status": "proved",
   "theorems": [
    "P3D.Fps.fpsCpu_spec",
    "P3D.Fps.fpsCpu_undefined",
    "P3D.Fps.fpsNaive_spec",
    "P3D.Fps.gpuRun_spec",
    "P3D.Fps.fps_agree",
    "P3D.Fps.IsFps.unique",
    "P3D.Fps.IsFps.nodup",
    "P3D.Fps.IsFps.covers",
    "P3D.Fps.IsFps.radius_antitone",
    "P3D.Fps.fps_duplicates",
    "P3D.Fps.fps_clamp",
    "P3D.Fps.fpsCuda_large",
    "P3D.Fps.fpsCuda_small_missing",
    "P3D.Fps.fpsCuda_small_oob"
   ],
   "note": "The quotient of logarithms in the CUDA launch code is taken as exact."
  },
  {
   "property": "C18",
   "status": "proved",
   "theorems": [
    "P3D.Chamfer.direction_value",
    "P3D.Chamfer.chamfer_value",
    "P3D.Chamfer.chamfer_rows",
    "P3D.Chamfer.chamfer_nonneg",
    "P3D.Chamfer.chamfer_symm",
    "P3D.Chamfer.chamfer_samePoints",
    "P3D.Chamfer.nn_spec",
    "P3D.Chamfer.oneWay_eq_zero_iff",
    "P3D.Chamfer.twoWay_eq_zero_iff",
    "P3D.Chamfer.chamfer_zero",
    "P3D.Chamfer.oneWay_empty",
    "P3D.Chamfer.chamfer_zero_weights",
    "P3D.Chamfer.normalTerm_range",
    "P3D.Chamfer.chamfer_errors"
   ],
   "note": "Arithmetic in an ordered field; the cosine similarity is a parameter with values in [-1, 1]."
  },
  {
   "property": "C19",
   "status": "proved",
   "theorems": [
    "P3D.Rot.quatToMat_rot",
    "P3D.Rot.quatToMat_mul",
    "P3D.Rot.quatToMat_smul",
    "P3D.Rot.quat_unique",
    "P3D.Rot.matToQuatAt_spec",
    "P3D.Rot.argmax4_spec",
    "P3D.Rot.matToQuat_spec",
    "P3D.Rot.matToQuat_quatToMat",
    "P3D.Rot.randomQuat_spec"
   ],
   "note": "Exact real arithmetic; argmax may return any maximising index."
  },
  {
   "property": "C20",
   "status": "proved",
   "theorems": [
    "P3D.Rot.apply_eq",
    "P3D.Rot.apply_unit",
    "P3D.Rot.apply_rawMul",
    "P3D.Rot.apply_invert",
    "P3D.Rot.rawMul_assoc",
    "P3D.Rot.rawMul_one",
    "P3D.Rot.normSq_rawMul",
    "P3D.Rot.rawMul_invert",
    "P3D.Rot.quatToMat_invert",
    "P3D.Rot.standardize_spec",
    "P3D.Rot.standardize_neg",
    "P3D.Rot.multiply_spec"
   ],
   "note": "Exact arithmetic."
  },
  {
   "property": "C21",
   "status": "proved",
   "theorems": [
    "P3D.Rot.axisRot_rot",
    "P3D.Rot.eulerToMat_rot",
    "P3D.Rot.convention_ok_iff",
    "P3D.Rot.eulerToMat_matToEuler",
    "P3D.Rot.matToEuler_eulerToMat",
    "P3D.Rot.gimbal_lock",
    "P3D.Rot.axisAngleToQuat_unit",
    "P3D.Rot.axisAngleToMat_rot",
    "P3D.Rot.axisAngleToMatFast_eq",
    "P3D.Rot.axisAngleToQuat_quatToAxisAngle",
    "P3D.Rot.quatToAxisAngle_axisAngleToQuat",
    "P3D.Rot.axisAngleToMat_matToAxisAngle",
    "P3D.Rot.matToAxisAngle_axisAngleToMat",
    "P3D.Rot.matToAxisAngleFast_eq",
    "P3D.Rot.matToAxisAngleFast_batch",
    "P3D.Rot.matToAxisAngleFast_wrong",
    "P3D.Rot.fastN_perp"
   ],
   "note": "Exact real arithmetic; sin, cos, atan2, sinc are the real functions."
  },
  {
   "property": "C22",
   "status": "proved",
   "theorems": [
    "P3D.Rot.rot6d_rot",
    "P3D.Rot.rot6d_small",
    "P3D.Rot.rot6d_roundtrip",
    "P3D.Rot.rot6d_invariant"
   ],
   "note": "Exact real arithmetic."
  },
  {
   "property": "C23",
   "status": "proved",
   "theorems": [
    "P3D.So3.hat_mulVec",
    "P3D.So3.hatInv_hat",
    "P3D.So3.hat_hatInv",
    "P3D.So3.hatInv_error",
    "P3D.So3.exp_rot",
    "P3D.So3.log_exp",
    "P3D.So3.exp_log",
    "P3D.So3.exp_add",
    "P3D.So3.exp_neg",
    "P3D.So3.se3Exp_rigid",
    "P3D.So3.se3Exp_se3Log",
    "P3D.So3.se3Log_se3Exp",
    "P3D.So3.se3Log_se3Exp_false",
    "P3D.So3.se3_eps_ignored",
    "P3D.So3.se3Exp_neg",
    "P3D.So3.rotationAngle_exp",
    "P3D.So3.relativeAngle_symm",
    "P3D.So3.relativeAngle_eq_zero",
    "P3D.So3.relativeAngle_self_pos",
    "P3D.So3.acosExtrap_spec"
   ],
   "note": "Exact real arithmetic; torch.linalg.solve is exact."
  },
  {
   "property": "C24",
   "status": "proved",
   "theorems": [
    "P3D.T3d.matB_compose",
    "P3D.T3d.matB_compose_compose",
    "P3D.T3d.matB_compose_nested",
    "P3D.T3d.inverse_spec",
    "P3D.T3d.inverse_elements",
    "P3D.T3d.inverseComposed_spec",
    "P3D.T3d.rotate_inverse_wrong",
    "P3D.T3d.stack_matrix",
    "P3D.T3d.getitem_matrix",
    "P3D.T3d.getitem_rotateAxisAngle",
    "P3D.T3d.getitem_dtype",
    "P3D.T3d.translate_vec",
    "P3D.T3d.translate_error",
    "P3D.T3d.scale_singleton",
    "P3D.T3d.transformPoint_kinds",
    "P3D.T3d.transformPoint_mul",
    "P3D.T3d.transformPoints_compose",
    "P3D.T3d.clampDenom_spec"
   ],
   "note": "Arithmetic in a field; torch.inverse is exact and fails on singular matrices."
  },
  {
   "property": "C25",
   "status": "proved",
   "theorems": [
    "P3D.T3d.normal_dot",
    "P3D.T3d.normal_perp",
    "P3D.T3d.normalMat_rot",
    "P3D.T3d.normalMat_mul",
    "P3D.T3d.transformNormals_rigid",
    "P3D.T3d.transformNormals_dot"
   ],
   "note": "Arithmetic in an ordered field."
  },
  {
   "property": "C26",
   "status": "proved",
   "theorems": [
    "P3D.Camera.projection_good",
    "P3D.Camera.full_good",
    "P3D.Camera.worldToView_given",
    "P3D.Camera.unproject_world",
    "P3D.Camera.unproject_scaled",
    "P3D.Camera.unproject_view",
    "P3D.Camera.valid_of_params",
    "P3D.Camera.full_w_ne",
    "P3D.Camera.unproject_from_ndc",
    "P3D.Camera.fovPersp_unproject_ignores",
    "P3D.Camera.fovPersp_roundtrip_fails",
    "P3D.Camera.kwargs_persist",
    "P3D.Camera.fovOrtho_unbatched",
    "P3D.Camera.persp_point",
    "P3D.Camera.ortho_point",
    "P3D.Camera.fovPersp_point"
   ],
   "note": "Arithmetic in a field; tan of half the field of view is a parameter."
  },
  {
   "property": "C27",
   "status": "proved",
   "theorems": [
    "P3D.Camera.ndc_screen_inverse",
    "P3D.Camera.corners",
    "P3D.Camera.screen_ndc_equiv",
    "P3D.Camera.transformPtsNdc_eq",
    "P3D.Camera.persp_screen",
    "P3D.Camera.ortho_screen",
    "P3D.Camera.cameraCenter_spec",
    "P3D.Camera.fovPersp_frustum",
    "P3D.Camera.fovPersp_monotone",
    "P3D.Camera.fovOrtho_box",
    "P3D.Camera.fovOrtho_scale_near"
   ],
   "note": "Arithmetic in an ordered field."
  },
  {
   "property": "C28",
   "status": "proved",
   "theorems": [
    "P3D.Camera.lookAt_rot_iff",
    "P3D.Camera.lookAt_parallel",
    "P3D.Camera.lookAt_eye",
    "P3D.Camera.lookAt_target",
    "P3D.Camera.lookAt_up",
    "P3D.Camera.sphericalPos_spec",
    "P3D.Camera.lookAtSpherical_target",
    "P3D.Camera.lookAtSpherical_above"
   ],
   "note": "Exact real arithmetic."
  },
  {
   "property": "C29",
   "status": "proved",
   "theorems": [
    "P3D.Raster.pixel_centre",
    "P3D.Raster.pixel_size",
    "P3D.Raster.mem_hits",
    "P3D.Raster.pointPixelCpu_spec",
    "P3D.Raster.pointPixelCpu_prefix",
    "P3D.Raster.naivePointsCpu_spec",
    "P3D.Raster.cloudItems_eq",
    "P3D.Raster.pointPixelGpu_spec",
    "P3D.Raster.pointPixel_cpu_gpu",
    "P3D.Raster.gpu_ties",
    "P3D.Raster.pqRun_eq",
    "P3D.Raster.drain_eq"
   ],
   "note": "Exact arithmetic in an ordered field."
  },
  {
   "property": "C30",
   "status": "proved",
   "theorems": [
    "P3D.Raster.faceHit_iff",
    "P3D.Raster.fragment_values",
    "P3D.Raster.box_redundant",
    "P3D.Raster.inside_iff",
    "P3D.Raster.meshPixelCpu_spec",
    "P3D.Raster.neighbours_spec",
    "P3D.Raster.threadRows_cover",
    "P3D.Raster.threadRows_disjoint",
    "P3D.Raster.threads_spec",
    "P3D.Raster.threads_no_race"
   ],
   "note": "Exact arithmetic; sqrt(blur_radius) is a non-negative number whose square is blur_radius."
  },
  {
   "property": "C31",
   "status": "proved",
   "theorems": [
    "P3D.BitMask.run_get",
    "P3D.BitMask.count_eq",
    "P3D.Coarse.alloc_spec",
    "P3D.Coarse.bins_spec",
    "P3D.Coarse.fit_prefix",
    "P3D.Coarse.coarse_spec",
    "P3D.Coarse.overlap1_pixel",
    "P3D.Coarse.fine_once",
    "P3D.Coarse.mesh_coarse_to_fine",
    "P3D.Coarse.point_coarse_to_fine",
    "P3D.Coarse.mesh_fine_naive",
    "P3D.Coarse.mask_in_bounds",
    "P3D.Coarse.negative_radius"
   ],
   "note": "Exact arithmetic; sequentially consistent atomics."
  },
  {
   "property": "C32",
   "status": "proved",
   "theorems": [
    "P3D.Raster.gpuRun_spec",
    "P3D.Raster.gpuPush_spec",
    "P3D.Raster.bubbleSort_spec",
    "P3D.Raster.gpuPixel_spec",
    "P3D.Raster.NearestK.depths",
    "P3D.Raster.NearestK.unique",
    "P3D.Raster.faceHitGpu_eq",
    "P3D.Raster.meshPixelGpu_spec",
    "P3D.Raster.meshPixel_cpu_gpu",
    "P3D.Raster.gpu_stale_max"
   ],
   "note": "Exact arithmetic in an ordered field."
  },
  {
   "property": "C33",
   "status": "proved",
   "theorems": [
    "P3D.Geom.bary_sum",
    "P3D.Geom.bary_combine",
    "P3D.Geom.bary_affine",
    "P3D.Geom.bary_cyclic",
    "P3D.Geom.bary_inside",
    "P3D.Geom.perspCorrect_spec",
    "P3D.Geom.perspCorrect_project",
    "P3D.Geom.perspCorrect_sign",
    "P3D.Geom.clip_spec",
    "P3D.Geom.edgeBackward_deriv",
    "P3D.Geom.baryBackward_deriv",
    "P3D.Geom.perspCorrectBackward_deriv",
    "P3D.Geom.clipBackward_deriv"
   ],
   "note": "Exact arithmetic in an ordered field (\u211d for derivatives)."
  },
  {
   "property": "C34",
   "status": "proved",
   "theorems": [
    "P3D.Geom.pointLine_min",
    "P3D.Geom.pointLine3_min",
    "P3D.Geom.pointLine_short",
    "P3D.Geom.pointLine3_short",
    "P3D.Geom.pointTri_min",
    "P3D.Geom.pointTri3_inside",
    "P3D.Geom.pointTri3_outside",
    "P3D.Geom.pointTri3_bounds",
    "P3D.Geom.pointTri3_else",
    "P3D.Geom.pointLineBackward_deriv",
    "P3D.Geom.pointLine3Backward_deriv",
    "P3D.Geom.pointLine3Backward_short",
    "P3D.Geom.pointTriBackward_deriv",
    "P3D.Geom.hd_planeT",
    "P3D.Geom.normErr_bound",
    "P3D.Geom.usePlane_open",
    "P3D.Geom.pointTri3Backward_deriv"
   ],
   "note": "Exact real arithmetic. The gradient of the 3D triangle is proved for the plane branch."
  },
  {
   "property": "C35",
   "status": "proved",
   "theorems": [
    "P3D.Compositing.alphaComposite_eq_over",
    "P3D.Compositing.over_eq_weights",
    "P3D.Compositing.sum_weights",
    "P3D.Compositing.weights_nonneg",
    "P3D.Compositing.over_bounds",
    "P3D.Compositing.over_opaque",
    "P3D.Compositing.alphaComposite_opaque",
    "P3D.Compositing.alphaComposite_affine",
    "P3D.Compositing.alphaComposite_gradAlphas",
    "P3D.Compositing.alphaComposite_gradAlphas_exact",
    "P3D.Compositing.alphaComposite_gradAlphas_error",
    "P3D.Compositing.alphaComposite_gradFeatures",
    "P3D.Compositing.alphaComposite_cuda",
    "P3D.Compositing.pixelsCuda_perm"
   ],
   "note": "Arithmetic in a field; rounding is not modelled."
  },
  {
   "property": "C36",
   "status": "proved",
   "theorems": [
    "P3D.Compositing.weightedSum_value",
    "P3D.Compositing.weightedSum_gradAlphas",
    "P3D.Compositing.weightedSum_gradFeatures",
    "P3D.Compositing.weightedSum_cuda",
    "P3D.Compositing.normWeightedSum_value",
    "P3D.Compositing.normWeightedSum_convex",
    "P3D.Compositing.normWeightedSum_gradFeatures",
    "P3D.Compositing.normWeightedSum_gradAlphas",
    "P3D.Compositing.normWeightedSum_gradAlphas_deriv",
    "P3D.Compositing.normWeightedSum_gradAlphas_below",
    "P3D.Compositing.normWeightedSum_cuda"
   ],
   "note": "Arithmetic in a field; derivatives over the reals."
  },
  {
   "property": "C37",
   "status": "proved",
   "theorems": [
    "P3D.Blending.sigmoid_value",
    "P3D.Blending.coverage_mem",
    "P3D.Blending.coverage_cons_lt",
    "P3D.Blending.coverage_perm",
    "P3D.Blending.coverage_lt_of_lt",
    "P3D.Blending.sigmoid_cuda",
    "P3D.Blending.sigmoid_backward_cuda",
    "P3D.Blending.sigmoid_backward_deriv",
    "P3D.Blending.softmaxBlend_eq",
    "P3D.Blending.softAverage_mem",
    "P3D.Blending.softmaxBlend_empty",
    "P3D.Blending.softAverage_unshifted",
    "P3D.Blending.hardBlend_eq"
   ],
   "note": "exp is the real exponential; overflow and underflow are not modelled."
  },
  {
   "property": "C38",
   "status": "proved",
   "theorems": [
    "P3D.SamplePdf.accumulate_eq",
    "P3D.SamplePdf.lowerBound_spec",
    "P3D.SamplePdf.sample_cpu_eq_cuda",
    "P3D.SamplePdf.sample_mem",
    "P3D.SamplePdf.sample_mono",
    "P3D.SamplePdf.sample_inverts",
    "P3D.SamplePdf.bin_weight_pos",
    "P3D.SamplePdf.threads_ok",
    "P3D.SamplePdf.threads_oob",
    "P3D.SamplePdf.visitedCuda_spec",
    "P3D.SamplePdf.samplePython_mem"
   ],
   "note": "Arithmetic in an ordered field."
  },
  {
   "property": "C39",
   "status": "proved",
   "theorems": [
    "P3D.Raymarching.eaWeights_eq",
    "P3D.Raymarching.eaForward_eq",
    "P3D.Raymarching.sum_weights_eq_opacity",
    "P3D.Raymarching.sum_weights_eps",
    "P3D.Raymarching.sum_weights_bounds",
    "P3D.Raymarching.weight_nonneg",
    "P3D.Raymarching.opacity_mem",
    "P3D.Raymarching.opacity_mono",
    "P3D.Raymarching.opacity_perm",
    "P3D.Raymarching.weight_binary",
    "P3D.Raymarching.thickness_zero",
    "P3D.Raymarching.thickness_negative"
   ],
   "note": "Arithmetic in a field."
  },
  {
   "property": "C40",
   "status": "proved",
   "theorems": [
    "P3D.Cubify.facesIdx_ne_zero",
    "P3D.Cubify.cubeFaces_outward",
    "P3D.Cubify.boundary_isClosed",
    "P3D.Cubify.cubify_spec",
    "P3D.Cubify.cubify_mesh",
    "P3D.Cubify.placement",
    "P3D.Cubify.face_outward"
   ],
   "note": "Exact arithmetic."
  },
  {
   "property": "C41",
   "status": "proved",
   "theorems": [
    "P3D.Marching.orientation",
    "P3D.Marching.soup_nodup",
    "P3D.Marching.soup_reverse",
    "P3D.Marching.soup_vertices",
    "P3D.Marching.soup_closed",
    "P3D.Marching.soup_nil_iff",
    "P3D.Marching.cpu_spec",
    "P3D.Marching.py_spec",
    "P3D.Marching.interp_spec",
    "P3D.Marching.proper_of_margin",
    "P3D.Marching.mesh_props",
    "P3D.Marching.watertight",
    "P3D.Marching.cpu_hole",
    "P3D.Marching.hash_inj",
    "P3D.Marching.hashF_collision",
    "P3D.Marching.reads_in_grid",
    "P3D.Marching.gpuRaw_spec",
    "P3D.Marching.gpuRaw_none",
    "P3D.Marching.dedup_spec",
    "P3D.Marching.gpu_spec",
    "P3D.Marching.toLocal_spec",
    "P3D.Marching.local_range",
    "P3D.Marching.default_iso"
   ],
   "note": "Exact arithmetic (except the float vertex ids of the C++ hash, modelled)."
  },
  {
   "property": "C42",
   "status": "proved",
   "theorems": [
    "P3D.Subdivide.het_spec",
    "P3D.Subdivide.het_alone",
    "P3D.Subdivide.piece_corners",
    "P3D.Subdivide.piece_rows",
    "P3D.Subdivide.subface_areaVec",
    "P3D.Subdivide.hom_eq_het"
   ],
   "note": "Negative vertex indices are treated as errors."
  },
  {
   "property": "C43",
   "status": "proved",
   "theorems": [
    "P3D.PtsVol.splat_partition",
    "P3D.PtsVol.loc_range",
    "P3D.PtsVol.splat_spec",
    "P3D.PtsVol.nearest_spec",
    "P3D.PtsVol.nearest_inside",
    "P3D.PtsVol.lround_spec",
    "P3D.PtsVol.total_mass",
    "P3D.PtsVol.order_independent",
    "P3D.PtsVol.gpu_eq_cpu",
    "P3D.PtsVol.rescaled_bounds",
    "P3D.PtsVol.mass_profile",
    "P3D.PtsVol.negative_inside",
    "P3D.PtsVol.python_spec",
    "P3D.PtsVol.writes_in_grid",
    "P3D.PtsVol.backward_spec"
   ],
   "note": "Exact arithmetic."
  },
  {
   "property": "C44",
   "status": "proved",
   "theorems": [
    "P3D.Laplacian.degree_eq",
    "P3D.Laplacian.laplacian_eq",
    "P3D.Laplacian.laplacian_entries",
    "P3D.Laplacian.laplacian_apply",
    "P3D.Laplacian.laplacian_rowSum",
    "P3D.Laplacian.heron_eq",
    "P3D.Laplacian.area_eq",
    "P3D.Laplacian.cots_eq",
    "P3D.Laplacian.cotLaplacian_entry",
    "P3D.Laplacian.cotLaplacian_symm",
    "P3D.Laplacian.cotLaplacian_two",
    "P3D.Laplacian.invAreas_eq",
    "P3D.Laplacian.normLaplacian_entry",
    "P3D.Laplacian.normLaplacian_symm"
   ],
   "note": "Arithmetic in a field; square roots and exponentials over the reals."
  },
  {
   "property": "C45",
   "status": "proved",
   "theorems": [
    "P3D.GatherScatter.gsPython_value",
    "P3D.GatherScatter.gsPython_error",
    "P3D.GatherScatter.kernel_value",
    "P3D.GatherScatter.gsCuda_value",
    "P3D.GatherScatter.aggregate_adjoint",
    "P3D.GatherScatter.aggregate_perm",
    "P3D.GatherScatter.aggregate_flip",
    "P3D.GatherScatter.aggregate_relabel",
    "P3D.GatherScatter.graphConv_value"
   ],
   "note": "Arithmetic in a commutative ring; atomics as every order of additions."
  },
  {
   "property": "C46",
   "status": "proved",
   "theorems": [
    "P3D.Chunks.gridStride_perm",
    "P3D.Chunks.chunked_spec"
   ],
   "note": "Which thread runs when is not modelled: the theorem is about the set of items visited."
  },
  {
   "property": "C47",
   "status": "proved",
   "theorems": [
    "P3D.Knn.backward_norm2",
    "P3D.Knn.backward_norm1",
    "P3D.Knn.backGpu_eq",
    "P3D.Scatter.scatterAdd_perm"
   ],
   "note": "Indices are assumed to be in range (they come from the forward pass)."
  },
  {
   "property": "C48",
   "status": "proved",
   "theorems": [
    "P3D.Raster.pointsBackward_deriv",
    "P3D.Raster.pointsBackward_atomic"
   ],
   "note": "Real arithmetic; the fragments are held fixed."
  },
  {
   "property": "C49",
   "status": "proved",
   "theorems": [
    "P3D.PackRect.pack_spec",
    "P3D.PackRect.pack_error",
    "P3D.PackRect.packUnique_spec"
   ],
   "note": "Sizes are positive integers."
  },
  {
   "property": "C50",
   "status": "proved",
   "theorems": [
    "P3D.Uv.joinScene_spec",
    "P3D.Uv.sample_newUv",
    "P3D.Uv.place_cell",
    "P3D.Uv.joinScene_zeroDivision",
    "P3D.Uv.joinScene_nearest_tie"
   ],
   "note": "Exact arithmetic; grid_sample is modelled by its documented formula. Compared with the original map before it is resized to the common size of a padded batch."
  },
  {
   "property": "C51",
   "status": "proved",
   "theorems": [
    "P3D.Clip.clip_parts",
    "P3D.Clip.clip_point",
    "P3D.Clip.clip_cover",
    "P3D.Clip.clip_disjoint",
    "P3D.Clip.clip_meshes",
    "P3D.Clip.clip_order",
    "P3D.Clip.clip_neighbor",
    "P3D.Clip.clip_error",
    "P3D.Clip.convert_background",
    "P3D.Clip.detach_gradient"
   ],
   "note": "Exact arithmetic. detach_gradient records that the gradient through p5 is not the derivative, because its weight is detached and that of p4 is not."
  },
  {
   "property": "C52",
   "status": "proved",
   "theorems": [
    "P3D.Clip.culled_iff",
    "P3D.Clip.cull_keeps",
    "P3D.Clip.cull_drops_visible",
    "P3D.Clip.cull_left_top_dead"
   ],
   "note": "The property is stated as the code behaves; the documented property is false."
  },
  {
   "property": "C53",
   "status": "proved",
   "theorems": [
    "P3D.Atlas.atlas_inside",
    "P3D.Atlas.atlas_total",
    "P3D.Atlas.atlas_mem",
    "P3D.Atlas.inside_unique",
    "P3D.Atlas.atlas_centre",
    "P3D.Atlas.centre_centroid",
    "P3D.Atlas.atlas_vertices",
    "P3D.Atlas.atlas_background",
    "P3D.Atlas.atlas_seam",
    "P3D.Atlas.atlas_negative",
    "P3D.Atlas.bilinearGrid_flip",
    "P3D.Atlas.atlas_material",
    "P3D.Atlas.uv_close",
    "P3D.Atlas.bilinearVec_eq",
    "P3D.Atlas.bilinearVec_error",
    "P3D.Atlas.meshAtlas_get",
    "P3D.Atlas.repeat_shift",
    "P3D.Atlas.repeat_crossing",
    "P3D.Atlas.repeat_depends"
   ],
   "note": "Exact arithmetic; PyTorch grid_sample is modelled by its documented formula."
  },
  {
   "property": "C54",
   "status": "proved",
   "theorems": [
    "P3D.FaceAttrs.interpPy_eq",
    "P3D.FaceAttrs.interpPy_error",
    "P3D.FaceAttrs.interpPy_noFaces",
    "P3D.FaceAttrs.fwd_value",
    "P3D.FaceAttrs.fwd_eq_py",
    "P3D.FaceAttrs.addresses",
    "P3D.FaceAttrs.bwd_mem",
    "P3D.FaceAttrs.bwd_gradient",
    "P3D.FaceAttrs.value_affine",
    "P3D.FaceAttrs.value_bounds",
    "P3D.FaceAttrs.sampleVertex_eq"
   ],
   "note": "The gradient statement is an identity in t over any commutative ring (the loss is bilinear)."
  },
  {
   "property": "C55",
   "status": "proved",
   "theorems": [
    "P3D.UvMaps.maps_align",
    "P3D.UvMaps.maps_position",
    "P3D.UvMaps.maps_nearest",
    "P3D.UvMaps.maps_mixed",
    "P3D.UvMaps.mapId_equal",
    "P3D.UvMaps.vertIds_eq",
    "P3D.UvMaps.mapId_padding",
    "P3D.UvMaps.mapId_wrong"
   ],
   "note": "The property is stated as the code behaves; the documented maps_padded[i, maps_ids[i, f]] is false for ragged batches."
  },
  {
   "property": "C56",
   "status": "proved",
   "theorems": [
    "P3D.Raster.faceLoss_hit",
    "P3D.Raster.cpuFace_deriv",
    "P3D.Raster.meshBackward_deriv",
    "P3D.Raster.cuda_of_face",
    "P3D.Raster.cuda_eq_cpu",
    "P3D.Raster.cuda_inside",
    "P3D.Raster.cuda_wrong",
    "P3D.Raster.witness_hit",
    "P3D.Raster.witness_regular"
   ],
   "note": "The property is stated as the code behaves: cuda_wrong is a proved counterexample to CPU/CUDA agreement and to the CUDA gradient being the derivative."
  },
  {
   "property": "C57",
   "status": "proved",
   "theorems": [
    "P3D.PointMesh.cpu_exact",
    "P3D.PointMesh.cpu_correct",
    "P3D.PointMesh.reduceAll_spec",
    "P3D.PointMesh.block_closest",
    "P3D.PointMesh.cuda_correct",
    "P3D.PointMesh.cuda_eq_cpu",
    "P3D.PointMesh.cpu_empty_wrong",
    "P3D.PointMesh.tie_differs",
    "P3D.PointMesh.cuda_backward",
    "P3D.PointMesh.cuda_array_backward",
    "P3D.PointMesh.cuda_array_forward",
    "P3D.PointMesh.pointTri3Backward_boundary",
    "P3D.PointMesh.backward_deriv",
    "P3D.PointMesh.cpu_backward_deriv",
    "P3D.PointMesh.array_backward_deriv",
    "P3D.PointMesh.loss_eq",
    "P3D.PointMesh.empty_target_grad",
    "P3D.PointMesh.empty_target_witness"
   ],
   "note": "The CPU search is wrong after empty batch entries (cpu_empty_wrong); the statement says so."
  },
  {
   "property": "C58",
   "status": "proved",
   "theorems": [
    "P3D.MeshLoss.same_block",
    "P3D.MeshLoss.sum_findVerts",
    "P3D.MeshLoss.sum_keyPairs_perm",
    "P3D.MeshLoss.heEdge_inj",
    "P3D.MeshLoss.pairLoss_eq",
    "P3D.MeshLoss.normalConsistency_eq",
    "P3D.MeshLoss.normalConsistency_range",
    "P3D.MeshLoss.normalConsistency_flat",
    "P3D.MeshLoss.edgeLoss_eq",
    "P3D.MeshLoss.lapSmoothing_eq",
    "P3D.MeshLoss.lapRow_uniform",
    "P3D.MeshLoss.cot_rowSum",
    "P3D.MeshLoss.lapRow_cot",
    "P3D.MeshLoss.lapRow_cotcurv",
    "P3D.MeshLoss.lapRow_cot_isolated"
   ],
   "note": ""
  },
  {
   "property": "C59",
   "status": "proved",
   "theorems": [
    "P3D.Align.umeyama",
    "P3D.Align.refl_trace_le",
    "P3D.Align.align_admissible",
    "P3D.Align.align_centred_min",
    "P3D.Align.align_translation_min",
    "P3D.Align.align_min",
    "P3D.Align.align_exact",
    "P3D.Align.alignBatch_padding",
    "P3D.Align.align_weights_witness",
    "P3D.Align.svd_exists",
    "P3D.Align.svdOk_exists"
   ],
   "note": ""
  },
  {
   "property": "C60",
   "status": "proved",
   "theorems": [
    "P3D.Icp.icp_spec",
    "P3D.Icp.icp_consistent",
    "P3D.Icp.step_admissible",
    "P3D.Icp.step_min",
    "P3D.Icp.rmse_antitone",
    "P3D.Icp.rmse_mono",
    "P3D.Icp.icp_converges",
    "P3D.Icp.icp_zero_stuck",
    "P3D.Icp.icp_self",
    "P3D.Icp.mask_correct",
    "P3D.Icp.step_padding",
    "P3D.Icp.icp_padding_witness",
    "P3D.Icp.ok_exists"
   ],
   "note": ""
  },
  {
   "property": "C61",
   "status": "proved",
   "theorems": [
    "P3D.CameraConv.persp_ndc_screen",
    "P3D.CameraConv.fromOpencv_valid",
    "P3D.CameraConv.fromOpencv_screen",
    "P3D.CameraConv.opencv_roundtrip",
    "P3D.CameraConv.camera_roundtrip",
    "P3D.CameraConv.pulsar_spec",
    "P3D.CameraConv.pulsar_principal",
    "P3D.CameraConv.toOpencv_screen_witness",
    "P3D.CameraConv.skew_dropped"
   ],
   "note": ""
  },
  {
   "property": "C62",
   "status": "proved",
   "theorems": [
    "P3D.Vol.mk_wf",
    "P3D.Vol.list_roundtrip",
    "P3D.Vol.getitem_spec",
    "P3D.Vol.getitem_toList",
    "P3D.Vol.getitem_coords",
    "P3D.Vol.updatePadded_iff",
    "P3D.Vol.updatePadded_feat",
    "P3D.Vol.coordLocal_true",
    "P3D.Vol.coordLocal_false",
    "P3D.Vol.coordLocal_unit",
    "P3D.Vol.xf_matrix",
    "P3D.Vol.local_world",
    "P3D.Vol.world_local",
    "P3D.Vol.coordWorld_true",
    "P3D.Vol.coordWorld_false",
    "P3D.Vol.sample_coord",
    "P3D.Vol.rayLocal_eq",
    "P3D.Vol.sampler_voxel",
    "P3D.Vol.sampler_spec",
    "P3D.Vol.splat_sample",
    "P3D.Vol.voxel_forms",
    "P3D.Vol.getitem_align_witness",
    "P3D.Vol.sampler_padding_witness",
    "P3D.Vol.coord_padding_witness"
   ],
   "note": ""
  },
  {
   "property": "C63",
   "status": "proved",
   "theorems": [
    "P3D.Rays.rays_spec",
    "P3D.Rays.rays_project",
    "P3D.Rays.unit_spec",
    "P3D.Rays.depths_spec",
    "P3D.Rays.jiggle_spec",
    "P3D.Rays.lengths_bounds",
    "P3D.Rays.indexCam_spec",
    "P3D.Rays.safe_spec",
    "P3D.Rays.safe_error",
    "P3D.Rays.ndc_grid",
    "P3D.Rays.forward_full",
    "P3D.Rays.forward_some",
    "P3D.Rays.mask_count",
    "P3D.Rays.forward_total",
    "P3D.Rays.forward_conflict",
    "P3D.Rays.forward_options",
    "P3D.Rays.forward_too_many",
    "P3D.Rays.mc_per",
    "P3D.Rays.mc_total"
   ],
   "note": ""
  },
  {
   "property": "C64",
   "status": "proved",
   "theorems": [
    "P3D.Obj.obj_roundtrip",
    "P3D.Obj.obj_verts_close",
    "P3D.Obj.obj_tiny",
    "P3D.Obj.step_face",
    "P3D.Obj.fmtIdx_spec",
    "P3D.Obj.obj_index_zero",
    "P3D.Obj.obj_relative_last",
    "P3D.Obj.obj_relative_total",
    "P3D.Obj.obj_tab_ignored",
    "P3D.Obj.obj_uvs_dropped",
    "P3D.Obj.obj_normals_pair",
    "P3D.Obj.obj_empty",
    "P3D.Obj.mtl_needs_name",
    "P3D.Obj.obj_texture_floor"
   ],
   "note": ""
  },
  {
   "property": "C65",
   "status": "proved",
   "theorems": [
    "P3D.Off.off_roundtrip",
    "P3D.Off.off_lossless",
    "P3D.Off.obj_lossless",
    "P3D.Off.fits_six",
    "P3D.Off.readFaces_spec",
    "P3D.Off.off_comments",
    "P3D.Off.off_empty_hangs",
    "P3D.Off.off_no_verts",
    "P3D.Off.off_trailing_comment",
    "P3D.Off.off_int_colors",
    "P3D.Off.off_float_colors",
    "P3D.Off.off_big_index",
    "P3D.Off.off_fraction_index"
   ],
   "note": ""
  },
  {
   "property": "C66",
   "status": "proved",
   "theorems": [
    "P3D.Ply.getLength_iff",
    "P3D.Ply.getLength_negative",
    "P3D.Ply.elemBin_spec",
    "P3D.Ply.elemAsc_spec",
    "P3D.Ply.header_wf",
    "P3D.Ply.load_binary",
    "P3D.Ply.load_ascii",
    "P3D.Ply.vertsSpec_named",
    "P3D.Ply.getFaces_spec",
    "P3D.Ply.header_saved",
    "P3D.Ply.ply_binary_roundtrip",
    "P3D.Ply.ply_ascii_roundtrip",
    "P3D.Ply.color_stable",
    "P3D.Ply.color_error",
    "P3D.Ply.header_truncated",
    "P3D.Ply.ply_three_columns",
    "P3D.Ply.ply_float32_mixed",
    "P3D.Ply.ply_blank_line",
    "P3D.Ply.ply_property_words",
    "P3D.Ply.binary_truncated",
    "P3D.Ply.binary_trailing",
    "P3D.Ply.row_extra",
    "P3D.Ply.property_words",
    "P3D.Ply.astype_trunc",
    "P3D.Ply.colours_scaled"
   ],
   "note": ""
  },
  {
   "property": "C67",
   "status": "proved",
   "theorems": [
    "P3D.TProps.init_spec",
    "P3D.TProps.init_attr",
    "P3D.TProps.getItem_int",
    "P3D.TProps.setItem_int",
    "P3D.TProps.set_separate",
    "P3D.TProps.set_other",
    "P3D.TProps.set_repeated",
    "P3D.TProps.set_repeated_slice",
    "P3D.TProps.slice_lt",
    "P3D.TProps.set_slice",
    "P3D.TProps.cloneAttrs_spec",
    "P3D.TProps.clone_spec",
    "P3D.TProps.clone_set",
    "P3D.TProps.gather_spec",
    "P3D.TProps.gather_error",
    "P3D.TProps.new_set_list",
    "P3D.TProps.new_set_repeated",
    "P3D.TProps.new_set_tensor"
   ],
   "note": ""
  },
  {
   "property": "C68",
   "status": "proved",
   "theorems": [
    "P3D.Light.diffuse_spec",
    "P3D.Light.specular_spec",
    "P3D.Light.lights_diffuse",
    "P3D.Light.lights_specular",
    "P3D.Light.shade_spec",
    "P3D.Light.shade_error",
    "P3D.Light.phong_spec",
    "P3D.Light.phong_one_material",
    "P3D.Light.phong_materials",
    "P3D.Light.phong_materials_error",
    "P3D.Light.flat_spec",
    "P3D.Light.gatherFace_negative",
    "P3D.Light.vertColors_spec",
    "P3D.Light.gouraud_spec",
    "P3D.Light.gouraud_one_channel",
    "P3D.Light.color_empty",
    "P3D.Light.color_empty_zero",
    "P3D.Light.lambert_cos",
    "P3D.Light.lambert_pos",
    "P3D.Light.lambert_le_one",
    "P3D.Light.lambert_behind",
    "P3D.Light.lambert_smul",
    "P3D.Light.mirror_angle",
    "P3D.Light.mirror_mirror",
    "P3D.Light.gloss_le_one",
    "P3D.Light.gloss_behind",
    "P3D.Light.gloss_mirror",
    "P3D.Light.gloss_swap",
    "P3D.Light.gloss_viewer_behind",
    "P3D.Light.shininess_mono",
    "P3D.Light.color_frame",
    "P3D.Light.color_range"
   ],
   "note": ""
  },
  {
   "property": "C69",
   "status": "proved",
   "theorems": [
    "P3D.Light.hard_number",
    "P3D.Light.hard_batch_error",
    "P3D.Light.hard_batch_order",
    "P3D.Light.softDepth_spec",
    "P3D.Light.softDepth_bounds",
    "P3D.Light.softDepth_empty",
    "P3D.Light.softDepth_batch",
    "P3D.Light.fill_bounds",
    "P3D.Light.fill_const"
   ],
   "note": ""
  },
  {
   "property": "C70",
   "status": "proved",
   "theorems": [
    "P3D.FaceGrad.face_deriv",
    "P3D.FaceGrad.backward_deriv",
    "P3D.FaceGrad.backward_areas",
    "P3D.FaceGrad.backward_perm",
    "P3D.FaceGrad.backward_wrong"
   ],
   "note": ""
  },
  {
   "property": "C71",
   "status": "proved",
   "theorems": [
    "P3D.SampleMesh.samplePoints_spec",
    "P3D.SampleMesh.point_convex",
    "P3D.SampleMesh.normalOf_spec",
    "P3D.SampleMesh.sample_empty",
    "P3D.SampleMesh.sample_none",
    "P3D.SampleMesh.textures_spec",
    "P3D.SampleMesh.bary_uniform",
    "P3D.SampleMesh.prob_uniform",
    "P3D.SampleMesh.bary_nonneg",
    "P3D.SampleMesh.bary_sum",
    "P3D.SampleMesh.triangle_volume",
    "P3D.SampleMesh.multinomial_exists"
   ],
   "note": ""
  },
  {
   "property": "C72",
   "status": "proved",
   "theorems": [
    "P3D.SymEig.eigvals_sorted",
    "P3D.SymEig.eigvals_sum",
    "P3D.SymEig.eigvecs_ortho",
    "P3D.SymEig.eigvals_diag",
    "P3D.SymEig.trig_charpoly",
    "P3D.SymEig.trig_charpoly_bound",
    "P3D.SymEig.trig_exact",
    "P3D.SymEig.eigvals_mix",
    "P3D.SymEig.halfDet_le",
    "P3D.SymEig.halfDet_gaps",
    "P3D.SymEig.ev0_residual",
    "P3D.SymEig.longest_ge",
    "P3D.SymEig.small_limit",
    "P3D.SymEig.flat_normal",
    "P3D.SymEig.flat_normal_bad"
   ],
   "note": ""
  },
  {
   "property": "C73",
   "status": "proved",
   "theorems": [
    "P3D.Normals.estimate_error",
    "P3D.Normals.estimate_normals",
    "P3D.Normals.neighbours_spec",
    "P3D.Normals.frames_translate",
    "P3D.Normals.cov_quad",
    "P3D.Normals.normal_min",
    "P3D.Normals.frame_disamb",
    "P3D.Normals.frame_symeig",
    "P3D.Normals.disamb_cases",
    "P3D.Normals.disamb_side",
    "P3D.Normals.disamb_sign",
    "P3D.Normals.square_normal",
    "P3D.Normals.eigh_exists"
   ],
   "note": ""
  },
  {
   "property": "C74",
   "status": "proved",
   "theorems": [
    "P3D.Textures.run_follows",
    "P3D.Textures.good_views",
    "P3D.Textures.attach_list",
    "P3D.Textures.attach_padded",
    "P3D.Textures.attach_accepts",
    "P3D.Textures.mismatch_accepted",
    "P3D.Textures.stale_list",
    "P3D.Textures.int_item",
    "P3D.Textures.dead_index",
    "P3D.Textures.atlas_list_empty",
    "P3D.Textures.dead_join",
    "P3D.Textures.empty_batches"
   ],
   "note": ""
  },
  {
   "property": "C75",
   "status": "proved",
   "theorems": [
    "P3D.Shapes.ico_level",
    "P3D.Shapes.ico_unit",
    "P3D.Shapes.ico_not_unit",
    "P3D.Shapes.ico_refines",
    "P3D.Shapes.ico_negative",
    "P3D.Shapes.torus_surface",
    "P3D.Shapes.torus_two",
    "P3D.Shapes.torus_vert",
    "P3D.Shapes.torus_on",
    "P3D.Shapes.torus_outward",
    "P3D.Shapes.torus_errors",
    "P3D.Shapes.surface_sub"
   ],
   "note": ""
  },
  {
   "property": "C76",
   "status": "proved",
   "theorems": [
    "P3D.Taubin.taubin_batch",
    "P3D.Taubin.one_number",
    "P3D.Taubin.one_zero",
    "P3D.Taubin.smooth_formula",
    "P3D.Taubin.one_motion",
    "P3D.Taubin.one_plane",
    "P3D.Taubin.one_halfspace"
   ],
   "note": ""
  },
  {
   "property": "C77",
   "status": "proved",
   "theorems": [
    "P3D.VertAlign.vertAlign_error",
    "P3D.VertAlign.align_tensor",
    "P3D.VertAlign.align_padded",
    "P3D.VertAlign.align_packed_meshes",
    "P3D.VertAlign.align_packed_tensor",
    "P3D.VertAlign.align_packed_clouds",
    "P3D.VertAlign.pixel_align",
    "P3D.VertAlign.pixel_half",
    "P3D.VertAlign.feature_between",
    "P3D.VertAlign.outside_zero"
   ],
   "note": ""
  },
  {
   "property": "C78",
   "status": "proved",
   "theorems": [
    "P3D.Splatter.blend_eq",
    "P3D.Splatter.layerOf_spec",
    "P3D.Splatter.weight_distance",
    "P3D.Splatter.gauss_sum",
    "P3D.Splatter.blend_single",
    "P3D.Splatter.blend_layer",
    "P3D.Splatter.blend_range",
    "P3D.Splatter.blend_background",
    "P3D.Splatter.blend_sigma",
    "P3D.Splatter.plain_inside",
    "P3D.Splatter.plain_corner",
    "P3D.Splatter.corner_half",
    "P3D.Splatter.scene_intended",
    "P3D.Splatter.scene_blend",
    "P3D.Splatter.scene_dimmed",
    "P3D.Splatter.cached_iff"
   ],
   "note": ""
  },
  {
   "property": "C79",
   "status": "proved",
   "theorems": [
    "P3D.PluggableIo.load_ok",
    "P3D.PluggableIo.load_error",
    "P3D.PluggableIo.register_load",
    "P3D.PluggableIo.save_spec",
    "P3D.PluggableIo.save_textures",
    "P3D.PluggableIo.endswith_unique",
    "P3D.PluggableIo.defaults_load",
    "P3D.PluggableIo.defaults_none",
    "P3D.PluggableIo.defaults_stream",
    "P3D.PluggableIo.save_load",
    "P3D.PluggableIo.clouds_only_ply",
    "P3D.PluggableIo.path_string",
    "P3D.PluggableIo.textures_survive",
    "P3D.PluggableIo.off_textures",
    "P3D.PluggableIo.no_textures"
   ],
   "note": ""
  },
  {
   "property": "C80",
   "status": "proved",
   "theorems": [
    "P3D.PointsRender.renderPixel_spec",
    "P3D.PointsRender.opacity_range",
    "P3D.PointsRender.alpha_range",
    "P3D.PointsRender.norm_range",
    "P3D.PointsRender.covered_background",
    "P3D.PointsRender.bgColour_ok",
    "P3D.PointsRender.override_negative",
    "P3D.PointsRender.formatRadius_matrix",
    "P3D.PointsRender.formatRadius_other",
    "P3D.PointsRender.formatRadius_error",
    "P3D.PointsRender.tensor_radius",
    "P3D.PointsRender.parseImageSize_ok",
    "P3D.PointsRender.binSize_default",
    "P3D.PointsRender.binSize_given"
   ],
   "note": ""
  },
  {
   "property": "C81",
   "status": "proved",
   "theorems": [
    "P3D.CameraAlign.aligned_view",
    "P3D.CameraAlign.alignCameras_some",
    "P3D.CameraAlign.extrinsics_min",
    "P3D.CameraAlign.extrinsics_R",
    "P3D.CameraAlign.extrinsics_T_min",
    "P3D.CameraAlign.extrinsics_exact",
    "P3D.CameraAlign.extrinsics_single",
    "P3D.CameraAlign.extrinsics_scale",
    "P3D.CameraAlign.extrinsics_reflection",
    "P3D.CameraAlign.centers_rot",
    "P3D.CameraAlign.centers_center",
    "P3D.CameraAlign.centers_min",
    "P3D.CameraAlign.centers_exact",
    "P3D.CameraAlign.centers_exact_cameras",
    "P3D.CameraAlign.centers_only",
    "P3D.CameraAlign.centers_collapse"
   ],
   "note": ""
  },
  {
   "property": "C82",
   "status": "proved",
   "theorems": [
    "P3D.FishEye.project_line",
    "P3D.FishEye.project_angle",
    "P3D.FishEye.center",
    "P3D.FishEye.jac_deriv",
    "P3D.FishEye.dpoly_deriv",
    "P3D.FishEye.unproject_project",
    "P3D.FishEye.roundtrip_plain",
    "P3D.FishEye.theta_converges",
    "P3D.FishEye.roundtrip_radial",
    "P3D.FishEye.project_unproject",
    "P3D.FishEye.no_radial",
    "P3D.FishEye.theta_nan",
    "P3D.FishEye.world_batch",
    "P3D.FishEye.camera_batch",
    "P3D.FishEye.getItem_cam",
    "P3D.FishEye.getItem_project",
    "P3D.FishEye.radial_params"
   ],
   "note": ""
  },
  {
   "property": "C83",
   "status": "proved",
   "theorems": [
    "P3D.CameraUtils.eyeAtUp_view",
    "P3D.CameraUtils.eyeAtUp_isSome",
    "P3D.CameraUtils.eyeAtUp_rot",
    "P3D.CameraUtils.lookAt_eyeAtUp",
    "P3D.CameraUtils.eyeAtUp_lookAt",
    "P3D.CameraUtils.lookAt_no_scale",
    "P3D.CameraUtils.rotOne_view",
    "P3D.CameraUtils.rotOne_center",
    "P3D.CameraUtils.rotOne_rotOne",
    "P3D.CameraUtils.rotOne_sense",
    "P3D.CameraUtils.translate_camera",
    "P3D.CameraUtils.rotateOnSpot_zip",
    "P3D.CameraUtils.rotateOnSpot_one",
    "P3D.CameraUtils.joinCams_ok",
    "P3D.CameraUtils.joinCams_index",
    "P3D.CameraUtils.joinCams_single"
   ],
   "note": ""
  },
  {
   "property": "C84",
   "status": "proved",
   "theorems": [
    "P3D.IoU.vol1_ppd",
    "P3D.IoU.self_overlap",
    "P3D.IoU.nested_overlap",
    "P3D.IoU.disjoint_overlap",
    "P3D.IoU.faces_exact",
    "P3D.IoU.shape_surface",
    "P3D.IoU.vol_nonneg",
    "P3D.IoU.clip_hull",
    "P3D.IoU.boxIntersections_cover",
    "P3D.IoU.clip_near",
    "P3D.IoU.clip_split",
    "P3D.IoU.triNormal_eq",
    "P3D.IoU.planeNormal_eq",
    "P3D.IoU.overlap_cuda",
    "P3D.IoU.small_boxes",
    "P3D.IoU.flat_boxes",
    "P3D.IoU.check_planar",
    "P3D.IoU.check_ppd",
    "P3D.IoU.check_sum",
    "P3D.IoU.box3dOverlap_ok"
   ],
   "note": ""
  },
  {
   "property": "C85",
   "status": "proved",
   "theorems": [
    "P3D.Harmonic.freqs_log",
    "P3D.Harmonic.freqs_lin",
    "P3D.Harmonic.embed_length",
    "P3D.Harmonic.embed_get",
    "P3D.Harmonic.embed_double",
    "P3D.Harmonic.embed_eq_iff",
    "P3D.Harmonic.embed_inj",
    "P3D.Harmonic.embed_cov_zero",
    "P3D.Harmonic.gauss_sincos",
    "P3D.Harmonic.embed_gauss",
    "P3D.Harmonic.linearWithRepeat_eq",
    "P3D.Harmonic.frustum_volume",
    "P3D.Harmonic.frustum_moments",
    "P3D.Harmonic.frustum_world",
    "P3D.Harmonic.frustum_nonneg",
    "P3D.Harmonic.frustumGaussian_length",
    "P3D.Harmonic.midpoints_mem"
   ],
   "note": ""
  },
  {
   "property": "C86",
   "status": "proved",
   "theorems": [
    "P3D.ImpRaymarch.ea_weights",
    "P3D.ImpRaymarch.ea_sum",
    "P3D.ImpRaymarch.ea_thick_sum",
    "P3D.ImpRaymarch.ea_thick",
    "P3D.ImpRaymarch.ea_core",
    "P3D.ImpRaymarch.cs_weights",
    "P3D.ImpRaymarch.cs_sum",
    "P3D.ImpRaymarch.ea_split",
    "P3D.ImpRaymarch.ea_exact",
    "P3D.ImpRaymarch.cs_exact",
    "P3D.ImpRaymarch.forward_range",
    "P3D.ImpRaymarch.forward_uniform",
    "P3D.ImpRaymarch.ea_opaque",
    "P3D.ImpRaymarch.last_ignored",
    "P3D.ImpRaymarch.ea_unsorted",
    "P3D.ImpRaymarch.forward_background"
   ],
   "note": ""
  },
  {
   "property": "C87",
   "status": "proved",
   "theorems": [
    "P3D.RayRefine.blurpool_get",
    "P3D.RayRefine.blurpool_envelope",
    "P3D.RayRefine.refine_ok",
    "P3D.RayRefine.refine_error",
    "P3D.RayRefine.run_ok",
    "P3D.RayRefine.run_nil",
    "P3D.RayRefine.ea_nonneg",
    "P3D.RayRefine.cs_nonneg"
   ],
   "note": ""
  },
  {
   "property": "C88",
   "status": "proved",
   "theorems": [
    "P3D.PnP.pair_spec",
    "P3D.PnP.alphas_spec",
    "P3D.PnP.alphas_cam",
    "P3D.PnP.buildM_zero",
    "P3D.PnP.nullSpace_zero",
    "P3D.PnP.candidate_exact",
    "P3D.PnP.true_kernel",
    "P3D.PnP.spanning_of_kernel",
    "P3D.PnP.reprojError_zero",
    "P3D.PnP.efficientPnp_best",
    "P3D.PnP.efficientPnp_rotation",
    "P3D.PnP.efficientPnp_recovers",
    "P3D.PnP.efficientPnp_two",
    "P3D.PnP.dists_combine",
    "P3D.PnP.dists_cam",
    "P3D.PnP.coords1_eq",
    "P3D.PnP.coords2_eq",
    "P3D.PnP.coords3_eq",
    "P3D.PnP.coords3_wrong",
    "P3D.PnP.pinvOk_exists",
    "P3D.PnP.eigOk_exists",
    "P3D.PnP.exKernel"
   ],
   "note": ""
  },
  {
   "property": "C89",
   "status": "proved",
   "theorems": [
    "P3D.Gltf.viewData_spec",
    "P3D.Gltf.interleaved_fails",
    "P3D.Gltf.openFile_save",
    "P3D.Gltf.save_ok",
    "P3D.Gltf.loadMeshes_save",
    "P3D.Gltf.glb_geometry",
    "P3D.Gltf.back_eq",
    "P3D.Gltf.glb_vertex",
    "P3D.Gltf.glb_uv",
    "P3D.Gltf.glb_twice",
    "P3D.Gltf.backColour_spec",
    "P3D.Gltf.colour_float32",
    "P3D.Gltf.queueLoop_levels",
    "P3D.Gltf.queueLoop_cycle",
    "P3D.Gltf.cycle_never_ends",
    "P3D.Gltf.trs_node",
    "P3D.Gltf.matrix_node",
    "P3D.Gltf.matrix_node_wrong",
    "P3D.Gltf.levels_world",
    "P3D.Gltf.loadPrim_verts",
    "P3D.Gltf.load_scene",
    "P3D.Gltf.colour_not_normalised"
   ],
   "note": ""
  },
  {
   "property": "C90",
   "status": "proved",
   "theorems": [
    "P3D.SphereTrace.loop_ray",
    "P3D.SphereTrace.loop_started",
    "P3D.SphereTrace.loop_not_started",
    "P3D.SphereTrace.forward_ray",
    "P3D.SphereTrace.trace_post",
    "P3D.SphereTrace.trace_encloses",
    "P3D.SphereTrace.trace_no_miss",
    "P3D.SphereTrace.trace_hit",
    "P3D.SphereTrace.trace_far",
    "P3D.SphereTrace.trace_finishes",
    "P3D.SphereTrace.signInd_spec",
    "P3D.SphereTrace.secant_bracket",
    "P3D.SphereTrace.secant_affine",
    "P3D.SphereTrace.secant_root",
    "P3D.SphereTrace.sampler_spec",
    "P3D.SphereTrace.forward_eval",
    "P3D.SphereTrace.eval_spec",
    "P3D.SphereTrace.finish_minimal",
    "P3D.SphereTrace.finish_left_out",
    "P3D.SphereTrace.sphere_spec",
    "P3D.SphereTrace.honest_of_lipschitz",
    "P3D.SphereTrace.honest_root",
    "P3D.SphereTrace.rayTracing_spec",
    "P3D.SphereTrace.masks_spec",
    "P3D.SphereTrace.masks_empty",
    "P3D.SphereTrace.sampleDist_implicit",
    "P3D.SphereTrace.scaled_misses",
    "P3D.SphereTrace.miss_point",
    "P3D.SphereTrace.mask_depends"
   ],
   "note": ""
  },
  {
   "property": "C91",
   "status": "proved",
   "theorems": [
    "P3D.CircleFit.normal_eq",
    "P3D.CircleFit.lstsq_of_normal",
    "P3D.CircleFit.radius_mean",
    "P3D.CircleFit.fit_optimal",
    "P3D.CircleFit.fit_exact",
    "P3D.CircleFit.fit_unique",
    "P3D.CircleFit.fit_perm",
    "P3D.CircleFit.fit_similar",
    "P3D.CircleFit.signedArea_shoelace",
    "P3D.CircleFit.signedArea_reverse",
    "P3D.CircleFit.signedArea_rotate",
    "P3D.CircleFit.signedArea_anticlockwise",
    "P3D.CircleFit.generated_on",
    "P3D.CircleFit.generated_first",
    "P3D.CircleFit.generated_closed",
    "P3D.CircleFit.generated_back",
    "P3D.CircleFit.rotation_proper",
    "P3D.CircleFit.plane_optimal",
    "P3D.CircleFit.fit3_exact",
    "P3D.CircleFit.lift_on",
    "P3D.CircleFit.lift_offset",
    "P3D.CircleFit.crossRows_ok",
    "P3D.CircleFit.crossRows_three"
   ],
   "note": ""
  },
  {
   "property": "C92",
   "status": "proved",
   "theorems": [
    "P3D.ViewPool.avg_between",
    "P3D.ViewPool.avg_small",
    "P3D.ViewPool.avg_filter",
    "P3D.ViewPool.std_filter",
    "P3D.ViewPool.std_ge",
    "P3D.ViewPool.std_const",
    "P3D.ViewPool.maxR_mask",
    "P3D.ViewPool.maxR_nonneg",
    "P3D.ViewPool.maxR_negative",
    "P3D.ViewPool.maxR_exceeds",
    "P3D.ViewPool.reduce_length",
    "P3D.ViewPool.aggDim_right",
    "P3D.ViewPool.maskRow_spec",
    "P3D.ViewPool.cartesian_get",
    "P3D.ViewPool.aggregate_seen",
    "P3D.ViewPool.aggregate_fails",
    "P3D.ViewPool.pooled_local",
    "P3D.ViewPool.pooled_alone",
    "P3D.ViewPool.pooled_avg",
    "P3D.ViewPool.angle_range",
    "P3D.ViewPool.camCenter_spec"
   ],
   "note": ""
  },
  {
   "property": "C93",
   "status": "proved",
   "theorems": [
    "P3D.Metrics.valid_spec",
    "P3D.Metrics.scale_optimal",
    "P3D.Metrics.scale_clamped",
    "P3D.Metrics.evalDepth_scale",
    "P3D.Metrics.disparity_rescales",
    "P3D.Metrics.disparity_best",
    "P3D.Metrics.disparity_plain",
    "P3D.Metrics.clamp_hurts",
    "P3D.Metrics.psnr_spec",
    "P3D.Metrics.mse_mask",
    "P3D.Metrics.psnr_empty",
    "P3D.Metrics.bce_balanced",
    "P3D.Metrics.clampP_range",
    "P3D.Metrics.logits_clamped",
    "P3D.Metrics.logit_half",
    "P3D.Metrics.logLerp_ge",
    "P3D.Metrics.logLerp_deriv",
    "P3D.Metrics.bceLerp_bounds",
    "P3D.Metrics.rgbL1_channels",
    "P3D.Metrics.huber_bounds",
    "P3D.Metrics.iou_range",
    "P3D.Metrics.iou_self",
    "P3D.Metrics.iou_empty",
    "P3D.Metrics.betaPrior_spec"
   ],
   "note": ""
  },
  {
   "property": "C94",
   "status": "proved",
   "theorems": [
    "P3D.SceneSampler.split_spec",
    "P3D.SceneSampler.groups_unique",
    "P3D.SceneSampler.split_ok",
    "P3D.SceneSampler.split_negative",
    "P3D.SceneSampler.cull_spec",
    "P3D.SceneSampler.segments_no_assertion",
    "P3D.SceneSampler.window_spec",
    "P3D.SceneSampler.segmentIndex_spec",
    "P3D.SceneSampler.nSeqs_mul",
    "P3D.SceneSampler.segments_sublist",
    "P3D.SceneSampler.seqFrames_spec",
    "P3D.SceneSampler.seqFrames_consecutive",
    "P3D.SceneSampler.batch_bound",
    "P3D.SceneSampler.batch_length",
    "P3D.SceneSampler.batch_full",
    "P3D.SceneSampler.batch_nodup",
    "P3D.SceneSampler.chosen_plain",
    "P3D.SceneSampler.keys_spec",
    "P3D.SceneSampler.sum_count_keys",
    "P3D.SceneSampler.chosen_aware",
    "P3D.SceneSampler.chosen_aware_full",
    "P3D.SceneSampler.chosen_aware_distinct",
    "P3D.SceneSampler.batch_short"
   ],
   "note": ""
  },
  {
   "property": "C95",
   "status": "proved",
   "theorems": [
    "P3D.FrameCrop.toXYXY_spec",
    "P3D.FrameCrop.thrLoop_spec",
    "P3D.FrameCrop.thrLoop_ends",
    "P3D.FrameCrop.thrLoop_single",
    "P3D.FrameCrop.bbox_single",
    "P3D.FrameCrop.bounds_spec",
    "P3D.FrameCrop.bbox_tight",
    "P3D.FrameCrop.bbox_threshold",
    "P3D.FrameCrop.bbox_ok",
    "P3D.FrameCrop.rint_bound",
    "P3D.FrameCrop.rint_mono",
    "P3D.FrameCrop.expand_spec",
    "P3D.FrameCrop.clampRound_spec",
    "P3D.FrameCrop.clampBbox_spec",
    "P3D.FrameCrop.clampBbox_squashed",
    "P3D.FrameCrop.clampRound_exact",
    "P3D.FrameCrop.ndc_pixels",
    "P3D.FrameCrop.camCrop_pixel",
    "P3D.FrameCrop.camScale_pixel",
    "P3D.FrameCrop.camLegacy_pixel",
    "P3D.FrameCrop.cropImg_spec",
    "P3D.FrameCrop.crop_spec",
    "P3D.FrameCrop.crop_ok",
    "P3D.FrameCrop.crop_metadata_once",
    "P3D.FrameCrop.cropDepth_same",
    "P3D.FrameCrop.rescale_wrong",
    "P3D.FrameCrop.cropDepth_fails",
    "P3D.FrameCrop.outSize_spec",
    "P3D.FrameCrop.resize_camera_error",
    "P3D.FrameCrop.resize_camera_error_x",
    "P3D.FrameCrop.nearest_spec",
    "P3D.FrameCrop.resize_spec"
   ],
   "note": ""
  },
  {
   "property": "C96",
   "status": "proved",
   "theorems": [
    "P3D.PulsarRender.tracker_sorted",
    "P3D.PulsarRender.tracker_closest",
    "P3D.PulsarRender.info_spec",
    "P3D.PulsarRender.blend_spec",
    "P3D.PulsarRender.finish_spec",
    "P3D.PulsarRender.finish_perm",
    "P3D.PulsarRender.color_softmax",
    "P3D.PulsarRender.denom_lower",
    "P3D.PulsarRender.color_between",
    "P3D.PulsarRender.color_clamped",
    "P3D.PulsarRender.draws_spec",
    "P3D.PulsarRender.render_prefix",
    "P3D.PulsarRender.render_all",
    "P3D.PulsarRender.threshold_weight",
    "P3D.PulsarRender.left_out",
    "P3D.PulsarRender.left_out_one",
    "P3D.PulsarRender.left_out_many",
    "P3D.PulsarRender.few_all",
    "P3D.PulsarRender.hits_bound",
    "P3D.PulsarRender.buffer_bound"
   ],
   "note": ""
  },
  {
   "property": "C97",
   "status": "proved",
   "theorems": [
    "P3D.PulsarDraw.chord_le_iff",
    "P3D.PulsarDraw.cp1_sq",
    "P3D.PulsarDraw.depth_first",
    "P3D.PulsarDraw.chord_hit",
    "P3D.PulsarDraw.chord_depth",
    "P3D.PulsarDraw.ray_left_out",
    "P3D.PulsarDraw.draw_weight",
    "P3D.PulsarDraw.closeness_large",
    "P3D.PulsarDraw.center_pixel_drawn",
    "P3D.PulsarDraw.tiny_depth",
    "P3D.PulsarDraw.ortho_first",
    "P3D.PulsarDraw.ortho_offset",
    "P3D.PulsarDraw.angles",
    "P3D.PulsarDraw.area_x",
    "P3D.PulsarDraw.area_y",
    "P3D.PulsarDraw.areaY_eq",
    "P3D.PulsarDraw.area_wrong",
    "P3D.PulsarDraw.pixelDir_projects",
    "P3D.PulsarDraw.bounds_mem",
    "P3D.PulsarDraw.meets_pixel",
    "P3D.PulsarDraw.onScreen",
    "P3D.PulsarDraw.hit_in_bounds",
    "P3D.PulsarDraw.ortho_in_bounds",
    "P3D.PulsarDraw.ortho_border",
    "P3D.PulsarDraw.border_asymmetric",
    "P3D.PulsarDraw.behind_threshold"
   ],
   "note": ""
  },
  {
   "property": "C98",
   "status": "proved",
   "theorems": [
    "P3D.PulsarGrad.dim_deriv",
    "P3D.PulsarGrad.gradCol_deriv",
    "P3D.PulsarGrad.coeff_deriv",
    "P3D.PulsarGrad.opacity_deriv",
    "P3D.PulsarGrad.depth_formula",
    "P3D.PulsarGrad.center_deriv",
    "P3D.PulsarGrad.ray_deriv",
    "P3D.PulsarGrad.radius_deriv",
    "P3D.PulsarGrad.position_gradient",
    "P3D.PulsarGrad.center_nan",
    "P3D.PulsarGrad.center_deriv_ortho",
    "P3D.PulsarGrad.posTrue_spec",
    "P3D.PulsarGrad.posO_iff",
    "P3D.PulsarGrad.normalized_average",
    "P3D.PulsarGrad.normalized_same",
    "P3D.PulsarGrad.normalized_nil"
   ],
   "note": ""
  },
  {
   "property": "C99",
   "status": "proved",
   "theorems": [
    "P3D.PulsarCam.trunc_err",
    "P3D.PulsarCam.trunc_int",
    "P3D.PulsarCam.film_in_aperture",
    "P3D.PulsarCam.camInfo_some",
    "P3D.PulsarCam.ray_axes",
    "P3D.PulsarCam.filmRay_axes",
    "P3D.PulsarCam.opencv_pixel",
    "P3D.PulsarCam.view_flip",
    "P3D.PulsarCam.focal_check",
    "P3D.PulsarCam.unified_pixel",
    "P3D.PulsarCam.radius_persp",
    "P3D.PulsarCam.radius_fov",
    "P3D.PulsarCam.fov_persp",
    "P3D.PulsarCam.fov_twice",
    "P3D.PulsarCam.fov_shrinks",
    "P3D.PulsarCam.one_camera",
    "P3D.PulsarCam.as_many_cameras"
   ],
   "note": ""
  },
  {
   "property": "C100",
   "status": "proved",
   "theorems": [
    "P3D.VoxelGrid.line_along",
    "P3D.VoxelGrid.plane_along",
    "P3D.VoxelGrid.volume_along",
    "P3D.VoxelGrid.cp_full",
    "P3D.VoxelGrid.vm_full",
    "P3D.VoxelGrid.components_spec",
    "P3D.VoxelGrid.resolution_spec",
    "P3D.VoxelGrid.resize_node",
    "P3D.VoxelGrid.resize_same",
    "P3D.VoxelGrid.refine_same",
    "P3D.VoxelGrid.crop_range",
    "P3D.VoxelGrid.crop_keeps",
    "P3D.VoxelGrid.crop_cp",
    "P3D.VoxelGrid.crop_unaligned",
    "P3D.VoxelGrid.cropSelf_node",
    "P3D.VoxelGrid.cropSelf_exact",
    "P3D.VoxelGrid.cropSelf_wrong",
    "P3D.VoxelGrid.locator_local",
    "P3D.VoxelGrid.gridAxis_aligned",
    "P3D.VoxelGrid.gridAxis_unaligned",
    "P3D.VoxelGrid.gridAxis_other",
    "P3D.VoxelGrid.gridPoint_translation"
   ],
   "note": ""
  },
  {
   "property": "C101",
   "status": "proved",
   "theorems": [
    "P3D.Binvox.cumsum_deltas",
    "P3D.Binvox.scatter_deltas",
    "P3D.Binvox.ranges_dense",
    "P3D.Binvox.computeIdxs_spec",
    "P3D.Binvox.computeIdxs_empty",
    "P3D.Binvox.coords_spec",
    "P3D.Binvox.pairs_spec",
    "P3D.Binvox.pairs_odd",
    "P3D.Binvox.dim_line",
    "P3D.Binvox.floats_line",
    "P3D.Binvox.header_spec",
    "P3D.Binvox.readCoords_spec",
    "P3D.Binvox.mem_onesOf",
    "P3D.Binvox.voxel_iff",
    "P3D.Binvox.x_in_range",
    "P3D.Binvox.align_spec",
    "P3D.Binvox.align_flat",
    "P3D.Binvox.empty_run"
   ],
   "note": ""
  },
  {
   "property": "C102",
   "status": "proved",
   "theorems": [
    "P3D.ShapeNet.voxelIdx_spec",
    "P3D.ShapeNet.build_models",
    "P3D.ShapeNet.category_slice",
    "P3D.ShapeNet.sample_category",
    "P3D.ShapeNet.sample_all",
    "P3D.ShapeNet.handle_models",
    "P3D.ShapeNet.handle_idxs",
    "P3D.ShapeNet.sampleCats_spec",
    "P3D.ShapeNet.views_spec",
    "P3D.ShapeNet.voxels_need_images",
    "P3D.ShapeNet.pictures_right",
    "P3D.ShapeNet.pictures_wrong",
    "P3D.ShapeNet.collate_without",
    "P3D.ShapeNet.extrinsic_entries",
    "P3D.ShapeNet.extrinsic_spec",
    "P3D.ShapeNet.calibration_view",
    "P3D.ShapeNet.calibration_rot",
    "P3D.ShapeNet.camera_center",
    "P3D.ShapeNet.voxel_ndc",
    "P3D.ShapeNet.mem_voxelize",
    "P3D.ShapeNet.depth_spec"
   ],
   "note": ""
  },
  {
   "property": "C103",
   "status": "proved",
   "theorems": [
    "P3D.ImpRays.lengths_length",
    "P3D.ImpRays.lengths_mid",
    "P3D.ImpRays.post_error",
    "P3D.ImpRays.bundle_points",
    "P3D.ImpRays.sampleMask_spec",
    "P3D.ImpRays.padded_spec",
    "P3D.ImpRays.padded_inputs",
    "P3D.ImpRays.pixelSize_spec",
    "P3D.ImpRays.norm3_rot",
    "P3D.ImpRays.radius_spec",
    "P3D.ImpRays.radius_variance",
    "P3D.ImpRays.cone_too_wide",
    "P3D.ImpRays.norm3_triangle",
    "P3D.ImpRays.norm3_neg",
    "P3D.ImpRays.bounds_order",
    "P3D.ImpRays.bounds_cover",
    "P3D.ImpRays.adaptive_first",
    "P3D.ImpRays.inter_symm",
    "P3D.ImpRays.inter_bounds",
    "P3D.ImpRays.overlap_spec",
    "P3D.ImpRays.inter_self",
    "P3D.ImpRays.overlap_disjoint",
    "P3D.ImpRays.align_view",
    "P3D.ImpRays.align_picture"
   ],
   "note": ""
  },
  {
   "property": "C104",
   "status": "proved",
   "theorems": [
    "P3D.RastGlue.transform_error",
    "P3D.RastGlue.transform_mesh",
    "P3D.RastGlue.resolve_default",
    "P3D.RastGlue.view_mix",
    "P3D.RastGlue.hit_bary",
    "P3D.RastGlue.ratio_bound",
    "P3D.RastGlue.fragment_point",
    "P3D.RastGlue.fragment_ortho",
    "P3D.RastGlue.uncorrected_depth",
    "P3D.RastGlue.behind_dropped"
   ],
   "note": ""
  },
  {
   "property": "C105",
   "status": "proved",
   "theorems": [
    "P3D.ImpChunks.ceilDiv_eq",
    "P3D.ImpChunks.ceilDiv_le",
    "P3D.ImpChunks.ceilDiv_pos",
    "P3D.ImpChunks.chunks_error",
    "P3D.ImpChunks.chunks_size",
    "P3D.ImpChunks.blocks_flatten",
    "P3D.ImpChunks.chunks_cover",
    "P3D.ImpChunks.mapM_ok",
    "P3D.ImpChunks.leafs_look",
    "P3D.ImpChunks.map_ok",
    "P3D.ImpChunks.catDict_spec",
    "P3D.ImpChunks.catF_leaf",
    "P3D.ImpChunks.catFs_leaf",
    "P3D.ImpChunks.chunked_same",
    "P3D.ImpChunks.packed_chunks",
    "P3D.ImpChunks.weightedSum_spec",
    "P3D.ImpChunks.preprocess_threshold",
    "P3D.ImpChunks.preprocess_soft",
    "P3D.ImpChunks.removed_le",
    "P3D.ImpChunks.keep_inlier",
    "P3D.ImpChunks.topk_disjoint",
    "P3D.ImpChunks.keep_count",
    "P3D.ImpChunks.keep_atLeast"
   ],
   "note": ""
  },
  {
   "property": "C106",
   "status": "proved",
   "theorems": [
    "P3D.PclTools.signedClamp_spec",
    "P3D.PclTools.cumprod_from",
    "P3D.PclTools.depth_over",
    "P3D.PclTools.mask_eq",
    "P3D.PclTools.over_bounds",
    "P3D.PclTools.depth_scaled",
    "P3D.PclTools.depth_flat",
    "P3D.PclTools.mc_mask",
    "P3D.PclTools.mc_feature",
    "P3D.PclTools.mem_rgbd",
    "P3D.PclTools.rgbd_depth",
    "P3D.PclTools.rgbd_euclidean",
    "P3D.PclTools.good_nonneg",
    "P3D.PclTools.cleanup_spec",
    "P3D.PclTools.threshold_pos",
    "P3D.PclTools.sampled_texel",
    "P3D.PclTools.lookup_square",
    "P3D.PclTools.square_pixel",
    "P3D.PclTools.wide_shift",
    "P3D.PclTools.outside_first"
   ],
   "note": ""
  },
  {
   "property": "C107",
   "status": "proved",
   "theorems": [
    "P3D.Loaders.mk_spec",
    "P3D.Loaders.flatten_length",
    "P3D.Loaders.iFirst_len",
    "P3D.Loaders.iter_spec",
    "P3D.Loaders.take_count",
    "P3D.Loaders.first_balanced",
    "P3D.Loaders.batches_spec",
    "P3D.Loaders.batches_none",
    "P3D.Loaders.known_frames",
    "P3D.Loaders.train_frames",
    "P3D.Loaders.train_itself",
    "P3D.Loaders.make_spec"
   ],
   "note": ""
  },
  {
   "property": "C108",
   "status": "proved",
   "theorems": [
    "P3D.TrainStats.run_start",
    "P3D.TrainStats.run_it",
    "P3D.TrainStats.record_get",
    "P3D.TrainStats.record_length",
    "P3D.TrainStats.meter_avg",
    "P3D.TrainStats.meter_inconsistent",
    "P3D.TrainStats.fold_other",
    "P3D.TrainStats.fold_var",
    "P3D.TrainStats.run_ep",
    "P3D.TrainStats.run_vars",
    "P3D.TrainStats.log_epoch",
    "P3D.TrainStats.values_new",
    "P3D.TrainStats.run_spec",
    "P3D.TrainStats.addVars_twice",
    "P3D.TrainStats.twice_counts"
   ],
   "note": ""
  },
  {
   "property": "C109",
   "status": "proved",
   "theorems": [
    "P3D.AutoDec.inv_empty",
    "P3D.AutoDec.lookup_none",
    "P3D.AutoDec.lookup_mem",
    "P3D.AutoDec.lookup_append",
    "P3D.AutoDec.next_length",
    "P3D.AutoDec.get_spec",
    "P3D.AutoDec.getAll_spec",
    "P3D.AutoDec.inv_inj",
    "P3D.AutoDec.getAll_enough",
    "P3D.AutoDec.load_prefix",
    "P3D.AutoDec.load_save",
    "P3D.AutoDec.load_order",
    "P3D.AutoDec.mapM_get",
    "P3D.AutoDec.forward_keys",
    "P3D.AutoDec.forward_ignore",
    "P3D.AutoDec.forward_ids"
   ],
   "note": ""
  },
  {
   "property": "C110",
   "status": "proved",
   "theorems": [
    "P3D.Decoders.relu_nonneg",
    "P3D.Decoders.softplus_pos",
    "P3D.Decoders.sigmoid_unit",
    "P3D.Decoders.app_mono",
    "P3D.Decoders.elementwise_spec",
    "P3D.Decoders.rows_length",
    "P3D.Decoders.lin_app",
    "P3D.Decoders.affLayer_ok",
    "P3D.Decoders.applyAff_ok",
    "P3D.Decoders.nBefore_succ",
    "P3D.Decoders.nBefore_mono",
    "P3D.Decoders.skipStep_ok",
    "P3D.Decoders.loop_ok",
    "P3D.Decoders.forward_size",
    "P3D.Decoders.forward_none",
    "P3D.Decoders.forward_nonneg",
    "P3D.Decoders.documented_last",
    "P3D.Decoders.relu_documented",
    "P3D.Decoders.swapped",
    "P3D.Decoders.mix_append",
    "P3D.Decoders.dot_mix",
    "P3D.Decoders.rows_mix",
    "P3D.Decoders.pre_mix",
    "P3D.Decoders.loop_identity",
    "P3D.Decoders.identity_affine",
    "P3D.Decoders.skip_zero",
    "P3D.Decoders.skip_zero_affine"
   ],
   "note": ""
  },
  {
   "property": "C111",
   "status": "proved",
   "theorems": [
    "P3D.Traj.trig_period",
    "P3D.Traj.periodic",
    "P3D.Traj.eight_box",
    "P3D.Traj.eight_cross",
    "P3D.Traj.eightKnot_ring",
    "P3D.Traj.trefoil_ring",
    "P3D.Traj.times_range",
    "P3D.Traj.zMax_le",
    "P3D.Traj.zMax_mem",
    "P3D.Traj.mapM_some",
    "P3D.Traj.knot_view",
    "P3D.Traj.offset_world",
    "P3D.Traj.offset_not_local",
    "P3D.Traj.roots_sum",
    "P3D.Traj.circle_mean",
    "P3D.Traj.scaleAbout_center",
    "P3D.Traj.disambiguate_spec",
    "P3D.Traj.cameras_look",
    "P3D.Traj.up_in_plane"
   ],
   "note": ""
  },
  {
   "property": "C112",
   "status": "proved",
   "theorems": [
    "P3D.JsonIndex.dropEmpty_mass",
    "P3D.JsonIndex.seqToIdx_spec",
    "P3D.JsonIndex.seqNames_spec",
    "P3D.JsonIndex.pick_mem",
    "P3D.JsonIndex.keepSeqs_mem",
    "P3D.JsonIndex.filter_spec",
    "P3D.JsonIndex.bySeq_spec",
    "P3D.JsonIndex.filter_annotated",
    "P3D.JsonIndex.keepIdx_spec",
    "P3D.JsonIndex.find_spec",
    "P3D.JsonIndex.getBatch_spec",
    "P3D.JsonIndex.getBatch_missing",
    "P3D.JsonIndex.removeMissing_spec",
    "P3D.JsonIndex.subset_frames",
    "P3D.JsonIndex.subsets_missing",
    "P3D.JsonIndex.subsets_not_filtered",
    "P3D.JsonIndex.subset_stale",
    "P3D.JsonIndex.join_frames",
    "P3D.JsonIndex.join_eval",
    "P3D.JsonIndex.join_wrong",
    "P3D.JsonIndex.join_mixed",
    "P3D.JsonIndex.le3_total",
    "P3D.JsonIndex.le3_trans",
    "P3D.JsonIndex.inOrder_all",
    "P3D.JsonIndex.inOrder_filter",
    "P3D.JsonIndex.inOrder_wrong",
    "P3D.JsonIndex.inOrder_none"
   ],
   "note": ""
  },
  {
   "property": "C113",
   "status": "proved",
   "theorems": [
    "P3D.SqlIndex.not_filtered",
    "P3D.SqlIndex.seqWhere_iff",
    "P3D.SqlIndex.frameWhere_iff",
    "P3D.SqlIndex.perCat_filter",
    "P3D.SqlIndex.perCat_sublist",
    "P3D.SqlIndex.filterSeqs_spec",
    "P3D.SqlIndex.seqQuery_limits",
    "P3D.SqlIndex.seqQuery_first",
    "P3D.SqlIndex.fromDb_spec",
    "P3D.SqlIndex.limitRows_spec",
    "P3D.SqlIndex.loadLists_mem",
    "P3D.SqlIndex.loadLists_error",
    "P3D.SqlIndex.keyed_unique",
    "P3D.SqlIndex.frameFilters_spec",
    "P3D.SqlIndex.unannotated",
    "P3D.SqlIndex.listed_twice",
    "P3D.SqlIndex.samp_sub",
    "P3D.SqlIndex.flatMap_filter_one",
    "P3D.SqlIndex.stratify_spec",
    "P3D.SqlIndex.nPer_zero",
    "P3D.SqlIndex.build_ok",
    "P3D.SqlIndex.filter_key",
    "P3D.SqlIndex.getKey_spec",
    "P3D.SqlIndex.getKey_missing",
    "P3D.SqlIndex.getKey_path",
    "P3D.SqlIndex.getInt_spec",
    "P3D.SqlIndex.getKey_twice",
    "P3D.SqlIndex.fromDb_consistent",
    "P3D.SqlIndex.mem_places",
    "P3D.SqlIndex.aligned_iff",
    "P3D.SqlIndex.places_db",
    "P3D.SqlIndex.db_aligned",
    "P3D.SqlIndex.misaligned",
    "P3D.SqlIndex.not_sorted",
    "P3D.SqlIndex.frameNumbers_first",
    "P3D.SqlIndex.frameNumbers_wrong",
    "P3D.SqlIndex.byFirst_mem",
    "P3D.SqlIndex.evalBatches_spec",
    "P3D.SqlIndex.mapM_option",
    "P3D.SqlIndex.evalPick_union",
    "P3D.SqlIndex.eval_union",
    "P3D.SqlIndex.eval_limits",
    "P3D.SqlIndex.eval_key",
    "P3D.SqlIndex.clause_not_filtered"
   ],
   "note": ""
  },
  {
   "property": "C114",
   "status": "proved",
   "theorems": [
    "P3D.MapProvider.joinSet_spec",
    "P3D.MapProvider.joinSet_some",
    "P3D.MapProvider.join_distinct",
    "P3D.MapProvider.join_shared",
    "P3D.MapProvider.join_iter",
    "P3D.MapProvider.setNames_keys",
    "P3D.MapProvider.setNames_spec",
    "P3D.MapProvider.firstSeen_spec",
    "P3D.MapProvider.mapM_seqs",
    "P3D.MapProvider.restrict_single",
    "P3D.MapProvider.restrict_errors",
    "P3D.MapProvider.restrict_names",
    "P3D.MapProvider.singleOk_spec",
    "P3D.MapProvider.filterMap_perm_length",
    "P3D.MapProvider.added_spec",
    "P3D.MapProvider.extendAll_spec",
    "P3D.MapProvider.testList_sup",
    "P3D.MapProvider.extend_found",
    "P3D.MapProvider.extend_again",
    "P3D.MapProvider.extend_key"
   ],
   "note": ""
  },
  {
   "property": "C115",
   "status": "proved",
   "theorems": [
    "P3D.WarpRace.low_add",
    "P3D.WarpRace.low_live",
    "P3D.WarpRace.frozen",
    "P3D.WarpRace.smaller",
    "P3D.WarpRace.laneOk_mono",
    "P3D.WarpRace.move_inv",
    "P3D.WarpRace.low_le",
    "P3D.WarpRace.racyStep_spec",
    "P3D.WarpRace.reduceStep_congr",
    "P3D.WarpRace.racy_agree",
    "P3D.WarpRace.warp_sync",
    "P3D.WarpRace.block_race_free",
    "P3D.WarpRace.warp_closest",
    "P3D.WarpRace.order_matters",
    "P3D.WarpRace.cases_lookup",
    "P3D.WarpRace.reg_array",
    "P3D.WarpRace.reg_beyond",
    "P3D.WarpRace.reg_get_set"
   ],
   "note": ""
  },
  {
   "property": "C116",
   "status": "proved",
   "theorems": [
    "P3D.Checkerboard.vert_at",
    "P3D.Checkerboard.mapM_some",
    "P3D.Checkerboard.mem_indexing",
    "P3D.Checkerboard.index_lt",
    "P3D.Checkerboard.face_top",
    "P3D.Checkerboard.face_bottom",
    "P3D.Checkerboard.colour_square",
    "P3D.Checkerboard.board_squares",
    "P3D.Checkerboard.opposite",
    "P3D.Checkerboard.board_count",
    "P3D.Checkerboard.board_error",
    "P3D.Checkerboard.board_area",
    "P3D.Checkerboard.board_verts"
   ],
   "note": ""
  },
  {
   "property": "C117",
   "status": "proved",
   "theorems": [
    "P3D.Checkpoints.pad8_digits",
    "P3D.Checkpoints.pad8_length",
    "P3D.Checkpoints.val_lt",
    "P3D.Checkpoints.pad8_eight",
    "P3D.Checkpoints.digits_inj",
    "P3D.Checkpoints.pad8_of_digits",
    "P3D.Checkpoints.root_dot",
    "P3D.Checkpoints.root_ckpt",
    "P3D.Checkpoints.paths_ckpt",
    "P3D.Checkpoints.three",
    "P3D.Checkpoints.removeAux_copy",
    "P3D.Checkpoints.digits_ne",
    "P3D.Checkpoints.remove_pth",
    "P3D.Checkpoints.removeAux_skip",
    "P3D.Checkpoints.removeAux_head",
    "P3D.Checkpoints.remove_pre",
    "P3D.Checkpoints.parse_ckpt",
    "P3D.Checkpoints.ckpt_inj",
    "P3D.Checkpoints.strLe_total",
    "P3D.Checkpoints.strLe_trans",
    "P3D.Checkpoints.strLe_prefix",
    "P3D.Checkpoints.strLe_val",
    "P3D.Checkpoints.isMatch_iff",
    "P3D.Checkpoints.mem_globbed",
    "P3D.Checkpoints.globbed_sorted",
    "P3D.Checkpoints.pad8_le",
    "P3D.Checkpoints.toModel_ext",
    "P3D.Checkpoints.getLast_max",
    "P3D.Checkpoints.globbed_last",
    "P3D.Checkpoints.findLast_spec",
    "P3D.Checkpoints.big_epoch",
    "P3D.Checkpoints.firstExt_some",
    "P3D.Checkpoints.findAll_spec",
    "P3D.Checkpoints.any_missing",
    "P3D.Checkpoints.load_save",
    "P3D.Checkpoints.stale_optimizer",
    "P3D.Checkpoints.safe_complete",
    "P3D.Checkpoints.safe_interrupted",
    "P3D.Checkpoints.digits_takeWhile",
    "P3D.Checkpoints.name_epoch",
    "P3D.Checkpoints.save_other",
    "P3D.Checkpoints.purge_spec"
   ],
   "note": ""
  },
  {
   "property": "C118",
   "status": "proved",
   "theorems": [
    "P3D.ImpConfig.none_removed",
    "P3D.ImpConfig.truthy_spec",
    "P3D.ImpConfig.dget_dset",
    "P3D.ImpConfig.sublist_after",
    "P3D.ImpConfig.baseOf_spec",
    "P3D.ImpConfig.register_get",
    "P3D.ImpConfig.register_error",
    "P3D.ImpConfig.get_sub",
    "P3D.ImpConfig.registerAll_spec",
    "P3D.ImpConfig.dget_mem",
    "P3D.ImpConfig.listing_spec",
    "P3D.ImpConfig.getAll_spec",
    "P3D.ImpConfig.late",
    "P3D.ImpConfig.create_spec",
    "P3D.ImpConfig.known_spec",
    "P3D.ImpConfig.two_lawful",
    "P3D.ImpConfig.two_bases",
    "P3D.ImpConfig.delOne_ok",
    "P3D.ImpConfig.delOne_error",
    "P3D.ImpConfig.delTypes_ok",
    "P3D.ImpConfig.delTypes_key",
    "P3D.ImpConfig.mem_stems",
    "P3D.ImpConfig.mem_argKeys",
    "P3D.ImpConfig.removed_ok",
    "P3D.ImpConfig.cleanKids_spec",
    "P3D.ImpConfig.clean_spec",
    "P3D.ImpConfig.clean_leaf",
    "P3D.ImpConfig.clean_node",
    "P3D.ImpConfig.selected_clean",
    "P3D.ImpConfig.plainKids_mem",
    "P3D.ImpConfig.delOne_none",
    "P3D.ImpConfig.delTypes_none",
    "P3D.ImpConfig.cleanKids_same",
    "P3D.ImpConfig.clean_idem",
    "P3D.ImpConfig.kids_idem",
    "P3D.ImpConfig.selected_kept",
    "P3D.ImpConfig.others_removed",
    "P3D.ImpConfig.twice_error",
    "P3D.ImpConfig.prefix_removed",
    "P3D.ImpConfig.prefix_error"
   ],
   "note": ""
  },
  {
   "property": "C119",
   "status": "proved",
   "theorems": [
    "P3D.OptFactory.named_eq",
    "P3D.OptFactory.groupOf_eq",
    "P3D.OptFactory.traverse_spec",
    "P3D.OptFactory.traverseAll_spec",
    "P3D.OptFactory.paramGroups_spec",
    "P3D.OptFactory.paramGroups_all",
    "P3D.OptFactory.own_first",
    "P3D.OptFactory.no_groups",
    "P3D.OptFactory.child_self",
    "P3D.OptFactory.shared_twice",
    "P3D.OptFactory.groupRate_spec",
    "P3D.OptFactory.optState_last",
    "P3D.OptFactory.optState_epoch",
    "P3D.OptFactory.train_keeps",
    "P3D.OptFactory.train_zero",
    "P3D.OptFactory.expFactor_spec",
    "P3D.OptFactory.linExp_spec",
    "P3D.OptFactory.linExp_unit",
    "P3D.OptFactory.passed_succ",
    "P3D.OptFactory.passed_zero",
    "P3D.OptFactory.multi_fresh",
    "P3D.OptFactory.multi_resume",
    "P3D.OptFactory.multi_resume_iff",
    "P3D.OptFactory.lambda_fresh",
    "P3D.OptFactory.lambda_resume"
   ],
   "note": ""
  },
  {
   "property": "C120",
   "status": "proved",
   "theorems": [
    "P3D.ViewMetrics.pick_ok",
    "P3D.ViewMetrics.pick_length",
    "P3D.ViewMetrics.pick_get",
    "P3D.ViewMetrics.packed_spec",
    "P3D.ViewMetrics.sorted_range",
    "P3D.ViewMetrics.packed_sorted",
    "P3D.ViewMetrics.clampMean_congr",
    "P3D.ViewMetrics.clampMean_const",
    "P3D.ViewMetrics.clampMean_nonneg",
    "P3D.ViewMetrics.clampMean_zero",
    "P3D.ViewMetrics.rgbSq_nonneg",
    "P3D.ViewMetrics.rgbSq_zero",
    "P3D.ViewMetrics.rgbMetrics_spec",
    "P3D.ViewMetrics.mse_mean",
    "P3D.ViewMetrics.mean_nonneg",
    "P3D.ViewMetrics.mean_zero",
    "P3D.ViewMetrics.eikonal_zero",
    "P3D.ViewMetrics.depthNeg_zero",
    "P3D.ViewMetrics.inner_length",
    "P3D.ViewMetrics.gridTv_ge",
    "P3D.ViewMetrics.gridTv_corner",
    "P3D.ViewMetrics.forward_spec"
   ],
   "note": ""
  },
  {
   "property": "C121",
   "status": "proved",
   "theorems": [
    "P3D.VoxelImplicit.select_map",
    "P3D.VoxelImplicit.select_zip",
    "P3D.VoxelImplicit.scatter_select",
    "P3D.VoxelImplicit.flat_zip",
    "P3D.VoxelImplicit.flat_length",
    "P3D.VoxelImplicit.tagged_fst",
    "P3D.VoxelImplicit.zipWith_tagged",
    "P3D.VoxelImplicit.forward_plain",
    "P3D.VoxelImplicit.forward_scaffold",
    "P3D.VoxelImplicit.forward_same",
    "P3D.VoxelImplicit.chunk_spec",
    "P3D.VoxelImplicit.poolSize_spec",
    "P3D.VoxelImplicit.lt_maximum",
    "P3D.VoxelImplicit.mem_window",
    "P3D.VoxelImplicit.occupied_spec",
    "P3D.VoxelImplicit.occupied_odd",
    "P3D.VoxelImplicit.occupied_self",
    "P3D.VoxelImplicit.mem_nonzero",
    "P3D.VoxelImplicit.lo_spec",
    "P3D.VoxelImplicit.hi_spec",
    "P3D.VoxelImplicit.cropBox_none",
    "P3D.VoxelImplicit.cropBox_spec",
    "P3D.VoxelImplicit.callback_change",
    "P3D.VoxelImplicit.run_spec",
    "P3D.VoxelImplicit.resume_fails"
   ],
   "note": ""
  },
  {
   "property": "C122",
   "status": "proved",
   "theorems": [
    "P3D.NvsEval.lossWeight_soft",
    "P3D.NvsEval.isTrain_iff",
    "P3D.NvsEval.srcViews_names",
    "P3D.NvsEval.evalFrame_spec",
    "P3D.NvsEval.evalFrame_blind",
    "P3D.NvsEval.evalFrame_missing",
    "P3D.NvsEval.checks_ok",
    "P3D.NvsEval.resultKeys_spec",
    "P3D.NvsEval.lossWeight_spec",
    "P3D.NvsEval.mean_some",
    "P3D.NvsEval.mean_nan",
    "P3D.NvsEval.where_sel",
    "P3D.NvsEval.average_spec",
    "P3D.NvsEval.average_key",
    "P3D.NvsEval.summarize_empty",
    "P3D.NvsEval.summarize_spec",
    "P3D.NvsEval.summarize_single",
    "P3D.NvsEval.plan_multi",
    "P3D.NvsEval.split_sum",
    "P3D.NvsEval.flatKey_inj",
    "P3D.NvsEval.insertAll_iff",
    "P3D.NvsEval.flatten_summary",
    "P3D.NvsEval.flatten_repeat",
    "P3D.NvsEval.orderedSet_spec",
    "P3D.NvsEval.header_ok",
    "P3D.NvsEval.header_wrong",
    "P3D.NvsEval.nanmean_spec",
    "P3D.NvsEval.aggregate_spec"
   ],
   "note": ""
  },
  {
   "property": "C123",
   "status": "proved",
   "theorems": [
    "P3D.ImpModels.nTargets_spec",
    "P3D.ImpModels.supervise_spec",
    "P3D.ImpModels.supervise_empty",
    "P3D.ImpModels.evaluatorReads_iff",
    "P3D.ImpModels.rayMask_spec",
    "P3D.ImpModels.construct_generic",
    "P3D.ImpModels.buildGeneric_ok",
    "P3D.ImpModels.buildGeneric_passes",
    "P3D.ImpModels.latent_width",
    "P3D.ImpModels.idr_no_pool",
    "P3D.ImpModels.overfit_classes",
    "P3D.ImpModels.overfit_coarse",
    "P3D.ImpModels.overfit_share",
    "P3D.ImpModels.forwardGeneric_ok",
    "P3D.ImpModels.forwardGeneric_none",
    "P3D.ImpModels.forwardGeneric_bound",
    "P3D.ImpModels.runGeneric_spec",
    "P3D.ImpModels.overfit_stale"
   ],
   "note": ""
  },
  {
   "property": "C124",
   "status": "proved",
   "theorems": [
    "P3D.SrnIdr.fcDims_layers",
    "P3D.SrnIdr.weightNorm_id",
    "P3D.SrnIdr.march_evals",
    "P3D.SrnIdr.march_far",
    "P3D.SrnIdr.dot_bound",
    "P3D.SrnIdr.march_init",
    "P3D.SrnIdr.render_spec",
    "P3D.SrnIdr.blend_spec",
    "P3D.SrnIdr.blend_length",
    "P3D.SrnIdr.forgetInit_spec",
    "P3D.SrnIdr.recurrent_nothing",
    "P3D.SrnIdr.hyperLinear_pack",
    "P3D.SrnIdr.hyper_positions",
    "P3D.SrnIdr.fcDims_run",
    "P3D.SrnIdr.ray_width",
    "P3D.SrnIdr.ray_mismatch",
    "P3D.SrnIdr.pixel_width",
    "P3D.SrnIdr.srn_runs",
    "P3D.SrnIdr.hyper_fails",
    "P3D.SrnIdr.layersFrom_run",
    "P3D.SrnIdr.idr_ok",
    "P3D.SrnIdr.idr_build",
    "P3D.SrnIdr.idr_skip_first",
    "P3D.SrnIdr.idr_raw",
    "P3D.SrnIdr.idr_raw_code",
    "P3D.SrnIdr.zeroFrom_length",
    "P3D.SrnIdr.init_columns",
    "P3D.SrnIdr.init_skip_nan",
    "P3D.SrnIdr.dot_zeros",
    "P3D.SrnIdr.dot_cut",
    "P3D.SrnIdr.net_rest",
    "P3D.SrnIdr.net_three",
    "P3D.SrnIdr.init_blind"
   ],
   "note": ""
  },
  {
   "property": "C125",
   "status": "proved",
   "theorems": [
    "P3D.NerfProject.mapM_ok",
    "P3D.NerfProject.mapM_mem",
    "P3D.NerfProject.range'_pieces",
    "P3D.NerfProject.renderAll_one",
    "P3D.NerfProject.renderAll_whole",
    "P3D.NerfProject.renderAll_loses",
    "P3D.NerfProject.precache_go",
    "P3D.NerfProject.precache_ok",
    "P3D.NerfProject.precache_redundant",
    "P3D.NerfProject.cached_same",
    "P3D.NerfProject.cached_training",
    "P3D.NerfProject.cached_batch",
    "P3D.NerfProject.stratify_spec",
    "P3D.NerfProject.stratified_caching",
    "P3D.NerfProject.fineDepths_spec",
    "P3D.NerfProject.weights_sum",
    "P3D.NerfProject.weights_one",
    "P3D.NerfProject.pieces_spec",
    "P3D.NerfProject.splitImages_ok",
    "P3D.NerfProject.splitImages_few",
    "P3D.NerfProject.dataset_spec",
    "P3D.NerfProject.rescale_spec",
    "P3D.NerfProject.rescale_gap",
    "P3D.NerfProject.circle_spec",
    "P3D.NerfProject.circle_closed"
   ],
   "note": ""
  },
  {
   "property": "C126",
   "status": "proved",
   "theorems": [
    "P3D.GlRaster.checkAll_ok",
    "P3D.GlRaster.checkAll_zclip",
    "P3D.GlRaster.glMat_flat",
    "P3D.GlRaster.clip_fov",
    "P3D.GlRaster.centre_x",
    "P3D.GlRaster.centre_y",
    "P3D.GlRaster.squeeze_pos",
    "P3D.GlRaster.cross_unique",
    "P3D.GlRaster.bary_unique",
    "P3D.GlRaster.frag_spec",
    "P3D.GlRaster.draw_spec",
    "P3D.GlRaster.decode_none",
    "P3D.GlRaster.win_eq",
    "P3D.GlRaster.win_mono",
    "P3D.GlRaster.win_far",
    "P3D.GlRaster.near_bounds",
    "P3D.GlRaster.frag_hit",
    "P3D.GlRaster.hit_pos",
    "P3D.GlRaster.hit_unique",
    "P3D.GlRaster.fix_bary",
    "P3D.GlRaster.raster_face",
    "P3D.GlRaster.raster_background",
    "P3D.GlRaster.far_dropped",
    "P3D.GlRaster.batchGo_one",
    "P3D.GlRaster.batch_shared",
    "P3D.GlRaster.batchGo_each",
    "P3D.GlRaster.batch_each",
    "P3D.GlRaster.packed_face",
    "P3D.GlRaster.local_packed",
    "P3D.GlRaster.shader_first",
    "P3D.GlRaster.calls_go",
    "P3D.GlRaster.calls_first"
   ],
   "note": ""
  },
  {
   "property": "C127",
   "status": "proved",
   "theorems": [
    "P3D.NerfFields.normalize_spec",
    "P3D.NerfFields.addSkip_elim",
    "P3D.NerfFields.broadcast_own",
    "P3D.NerfFields.broadcast_wrong",
    "P3D.NerfFields.rotate_one",
    "P3D.NerfFields.rowMul_e",
    "P3D.NerfFields.rotate_many",
    "P3D.NerfFields.norm3_scale",
    "P3D.NerfFields.field_spec",
    "P3D.NerfFields.attn_perm",
    "P3D.NerfFields.round_ray",
    "P3D.NerfFields.loop_ray",
    "P3D.NerfFields.transform_ray",
    "P3D.NerfFields.rayAll_pool",
    "P3D.NerfFields.rayAll_pts",
    "P3D.NerfFields.nerformer_views",
    "P3D.NerfFields.nerformer_points",
    "P3D.NerfFields.nerformer_local",
    "P3D.NerfFields.poolOut_between",
    "P3D.NerfFields.poolOut_one",
    "P3D.NerfFields.buildTr_ok",
    "P3D.NerfFields.runWidth_ok",
    "P3D.NerfFields.transformer_runs"
   ],
   "note": ""
  },
  {
   "property": "C128",
   "status": "proved",
   "theorems": [
    "P3D.PlotlyVis.mem_sceneItems",
    "P3D.PlotlyVis.foldl_max_le",
    "P3D.PlotlyVis.le_foldl_max",
    "P3D.PlotlyVis.foldl_max_mem",
    "P3D.PlotlyVis.maxSize_ok",
    "P3D.PlotlyVis.extend_ok",
    "P3D.PlotlyVis.noextend_all_or_none",
    "P3D.PlotlyVis.noextend_ok_iff",
    "P3D.PlotlyVis.put_keys",
    "P3D.PlotlyVis.foldl_put",
    "P3D.PlotlyVis.foldl_put_mem",
    "P3D.PlotlyVis.scenes_distinct",
    "P3D.PlotlyVis.scenes_mem",
    "P3D.PlotlyVis.scenes_nodup",
    "P3D.PlotlyVis.getD_lt",
    "P3D.PlotlyVis.plotBatch_ok",
    "P3D.PlotlyVis.camRays_own",
    "P3D.PlotlyVis.place_ok",
    "P3D.PlotlyVis.lmin_le_lmax",
    "P3D.PlotlyVis.sum_between",
    "P3D.PlotlyVis.mean_between",
    "P3D.PlotlyVis.spread_le",
    "P3D.PlotlyVis.upd_contains",
    "P3D.PlotlyVis.bounds_contain",
    "P3D.PlotlyVis.bounds_cube",
    "P3D.PlotlyVis.bounds_mono",
    "P3D.PlotlyVis.scale_pos",
    "P3D.PlotlyVis.scale_degenerate",
    "P3D.PlotlyVis.scale_dir",
    "P3D.PlotlyVis.scale_inside",
    "P3D.PlotlyVis.viewpoint_spec",
    "P3D.PlotlyVis.moved_used",
    "P3D.PlotlyVis.moved_between",
    "P3D.PlotlyVis.segments_pts",
    "P3D.PlotlyVis.segments_split",
    "P3D.PlotlyVis.wires_from",
    "P3D.PlotlyVis.wires_segments",
    "P3D.PlotlyVis.rayLines_segments",
    "P3D.PlotlyVis.rayLines_junk",
    "P3D.PlotlyVis.wires_length",
    "P3D.PlotlyVis.frame_edges",
    "P3D.PlotlyVis.subPoints_own"
   ],
   "note": ""
  },
  {
   "property": "C129",
   "status": "proved",
   "theorems": [
    "P3D.GeomGpu.edge_eq",
    "P3D.GeomGpu.edgeBackward_eq",
    "P3D.GeomGpu.bary_eq",
    "P3D.GeomGpu.baryBackward_eq",
    "P3D.GeomGpu.perspCorrect_eq",
    "P3D.GeomGpu.perspCorrectBackward_eq",
    "P3D.GeomGpu.clip_eq",
    "P3D.GeomGpu.clipBackward_eq",
    "P3D.GeomGpu.saturate_eq",
    "P3D.GeomGpu.pointLine_eq",
    "P3D.GeomGpu.pointLineBackward_eq",
    "P3D.GeomGpu.pointTri_eq",
    "P3D.GeomGpu.pointTriBackward_eq",
    "P3D.GeomGpu.bary3_eq",
    "P3D.GeomGpu.pointLine3Backward_eq",
    "P3D.GeomGpu.pointLine3_eq",
    "P3D.GeomGpu.pointLine3_short",
    "P3D.GeomGpu.pointLine3_swap",
    "P3D.GeomGpu.pointLine3_min_gpu",
    "P3D.GeomGpu.norm_eq",
    "P3D.GeomGpu.pointLine3_close",
    "P3D.GeomGpu.area3_eq",
    "P3D.GeomGpu.insideTri_iff",
    "P3D.GeomGpu.triNormal_eq",
    "P3D.GeomGpu.planeT_eq",
    "P3D.GeomGpu.usePlane_iff",
    "P3D.GeomGpu.pointTri3_eq",
    "P3D.GeomGpu.normalizeBackward_eq",
    "P3D.GeomGpu.crossBackward_eq",
    "P3D.GeomGpu.pointTri3Backward_eq",
    "P3D.GeomGpu.pointTri3_plane",
    "P3D.GeomGpu.pointTri3_tiny"
   ],
   "note": ""
  },
  {
   "property": "C130",
   "status": "proved",
   "theorems": [
    "P3D.KnnLaunch.helper1_spec",
    "P3D.KnnLaunch.dispatch1_spec",
    "P3D.KnnLaunch.helper2_spec",
    "P3D.KnnLaunch.dispatch2_spec",
    "P3D.KnnLaunch.reg_ok",
    "P3D.KnnLaunch.reg_lost",
    "P3D.KnnLaunch.chooseVersion_ok",
    "P3D.KnnLaunch.chooseVersion_max",
    "P3D.KnnLaunch.pickVersion_ok",
    "P3D.KnnLaunch.pickVersion_spec",
    "P3D.KnnLaunch.launch_runs",
    "P3D.KnnLaunch.launch_default",
    "P3D.KnnLaunch.strided_ge",
    "P3D.KnnLaunch.mem_strided",
    "P3D.KnnLaunch.strided_nodup",
    "P3D.KnnLaunch.chunk_div",
    "P3D.KnnLaunch.mem_threadWork",
    "P3D.KnnLaunch.covers",
    "P3D.KnnLaunch.work_once",
    "P3D.KnnLaunch.threadWork_nodup",
    "P3D.KnnLaunch.mem_allWork",
    "P3D.KnnLaunch.allWork_nodup",
    "P3D.KnnLaunch.mem_queries",
    "P3D.KnnLaunch.queries_nodup",
    "P3D.KnnLaunch.allWork_perm",
    "P3D.KnnLaunch.too_long",
    "P3D.KnnLaunch.cell_row",
    "P3D.KnnLaunch.cell_inj",
    "P3D.KnnLaunch.cell_lt",
    "P3D.KnnLaunch.toInt32_ok_iff",
    "P3D.KnnLaunch.offsets_ok_iff",
    "P3D.KnnLaunch.foldl_update",
    "P3D.KnnLaunch.rows_spec",
    "P3D.KnnLaunch.launch_nearest"
   ],
   "note": ""
  },
  {
   "property": "C131",
   "status": "proved",
   "theorems": [
    "P3D.SingleScene.dbir_keeps",
    "P3D.SingleScene.pyGet_nat",
    "P3D.SingleScene.pyGet_neg",
    "P3D.SingleScene.pyGet_out",
    "P3D.SingleScene.pyGetOpt_map",
    "P3D.SingleScene.dataset_own",
    "P3D.SingleScene.trainSet_spec",
    "P3D.SingleScene.testSet_single",
    "P3D.SingleScene.extended",
    "P3D.SingleScene.wrong_mask",
    "P3D.SingleScene.batch_spec",
    "P3D.SingleScene.batches_prefix",
    "P3D.SingleScene.mapM_error",
    "P3D.SingleScene.batch_fails",
    "P3D.SingleScene.batch_loads",
    "P3D.SingleScene.inOrder_spec",
    "P3D.SingleScene.testLoader_spec",
    "P3D.SingleScene.generic_spec",
    "P3D.SingleScene.accesses_cached",
    "P3D.SingleScene.accesses_once",
    "P3D.SingleScene.dbir_ok",
    "P3D.SingleScene.dbir_error"
   ],
   "note": ""
  },
  {
   "property": "C132",
   "status": "proved",
   "theorems": [
    "P3D.PackWrap.flat_lt",
    "P3D.PackWrap.unflat_flat",
    "P3D.PackWrap.row_get",
    "P3D.PackWrap.entry_zero",
    "P3D.PackWrap.cut_spec",
    "P3D.PackWrap.offset_eq",
    "P3D.PackWrap.firstIdxs_eq",
    "P3D.PackWrap.start_lt",
    "P3D.PackWrap.padded_spec",
    "P3D.PackWrap.padded_errors",
    "P3D.PackWrap.packRows_spec",
    "P3D.PackWrap.movedim_spec",
    "P3D.PackWrap.packed_spec",
    "P3D.PackWrap.packed_errors",
    "P3D.PackWrap.roundtrip"
   ],
   "note": ""
  },
  {
   "property": "C133",
   "status": "proved",
   "theorems": [
    "P3D.PulsarPass.foldl_minMax",
    "P3D.PulsarPass.foldl_min_spec",
    "P3D.PulsarPass.foldl_max_spec",
    "P3D.PulsarPass.start_valid",
    "P3D.PulsarPass.area_covers",
    "P3D.PulsarPass.area_perm",
    "P3D.PulsarPass.invalid_empty",
    "P3D.PulsarPass.area_none",
    "P3D.PulsarPass.ceilDiv_spec",
    "P3D.PulsarPass.mem_starts",
    "P3D.PulsarPass.starts_sorted",
    "P3D.PulsarPass.step_pos",
    "P3D.PulsarPass.regions_count",
    "P3D.PulsarPass.region_unique",
    "P3D.PulsarPass.region_exists",
    "P3D.PulsarPass.applyPerm_map",
    "P3D.PulsarPass.select_map",
    "P3D.PulsarPass.arrays_aligned",
    "P3D.PulsarPass.region_spec",
    "P3D.PulsarPass.sorted_perm",
    "P3D.PulsarPass.mem_regions",
    "P3D.PulsarPass.starts_nodup",
    "P3D.PulsarPass.regions_nodup",
    "P3D.PulsarPass.written_once",
    "P3D.PulsarPass.foldl_none",
    "P3D.PulsarPass.foldl_same",
    "P3D.PulsarPass.film_spec",
    "P3D.PulsarPass.blending_local",
    "P3D.PulsarPass.background",
    "P3D.PulsarPass.same_pixel",
    "P3D.PulsarPass.loc_disjoint",
    "P3D.PulsarPass.foldl_add",
    "P3D.PulsarPass.addAll_spec",
    "P3D.PulsarPass.mine_mem",
    "P3D.PulsarPass.sphere_mean",
    "P3D.PulsarPass.cam_nan",
    "P3D.PulsarPass.cam_large",
    "P3D.PulsarPass.cam_small",
    "P3D.PulsarPass.dbg_pixel",
    "P3D.PulsarPass.dbg_host",
    "P3D.PulsarPass.dbg_cam"
   ],
   "note": ""
  },
  {
   "property": "C134",
   "status": "proved",
   "theorems": [
    "P3D.Flyaround.depth_ignores",
    "P3D.Flyaround.basicsFac_value",
    "P3D.Flyaround.times_spec",
    "P3D.Flyaround.sources_spec",
    "P3D.Flyaround.fly_spec",
    "P3D.Flyaround.merge_spec",
    "P3D.Flyaround.extractOne_spec",
    "P3D.Flyaround.side_spec",
    "P3D.Flyaround.catX_spec",
    "P3D.Flyaround.catY_spec",
    "P3D.Flyaround.catX_h",
    "P3D.Flyaround.stack_spec",
    "P3D.Flyaround.rank_spec",
    "P3D.Flyaround.clamp01_range",
    "P3D.Flyaround.sorted_s",
    "P3D.Flyaround.rank_counts",
    "P3D.Flyaround.limits_spec",
    "P3D.Flyaround.depth_basic",
    "P3D.Flyaround.depth_limits",
    "P3D.Flyaround.depth_empty",
    "P3D.Flyaround.basicsFac_error",
    "P3D.Flyaround.basics_windows",
    "P3D.Flyaround.val_zeros",
    "P3D.Flyaround.frameName_inj",
    "P3D.Flyaround.write_all",
    "P3D.Flyaround.takeWhile_some",
    "P3D.Flyaround.video_spec",
    "P3D.Flyaround.frameSize_spec",
    "P3D.Flyaround.renderSize_exchanged",
    "P3D.Flyaround.videos_spec",
    "P3D.Flyaround.videoPath_inj",
    "P3D.Flyaround.shown_spec",
    "P3D.Flyaround.splitBy_ne",
    "P3D.Flyaround.splitBy_append",
    "P3D.Flyaround.splitBy_one",
    "P3D.Flyaround.visdomEnv_spec",
    "P3D.Flyaround.connect_once"
   ],
   "note": ""
  },
  {
   "property": "C135",
   "status": "proved",
   "theorems": [
    "P3D.CondNets.normalised_centred",
    "P3D.CondNets.dirWidth_eq",
    "P3D.CondNets.firstWidth_eq",
    "P3D.CondNets.coloring_runs",
    "P3D.CondNets.coloring_pooled",
    "P3D.CondNets.coloring_empty",
    "P3D.CondNets.maskedDirs_spec",
    "P3D.CondNets.out_range",
    "P3D.CondNets.timeEncode_spec",
    "P3D.CondNets.seqEncode_error",
    "P3D.CondNets.featDims_ok",
    "P3D.CondNets.avgPool_fails",
    "P3D.CondNets.missing_inputs",
    "P3D.CondNets.sq_scale",
    "P3D.CondNets.l2_spec",
    "P3D.CondNets.l2_total",
    "P3D.CondNets.foldl_max_spec",
    "P3D.CondNets.normalised_spec",
    "P3D.CondNets.not_in_sphere",
    "P3D.CondNets.azim_spec"
   ],
   "note": ""
  },
  {
   "property": "C136",
   "status": "proved",
   "theorems": [
    "P3D.PulsarTorch.gradShapeOk_spec",
    "P3D.PulsarTorch.firstFail_none",
    "P3D.PulsarTorch.len0",
    "P3D.PulsarTorch.len1",
    "P3D.PulsarTorch.len2",
    "P3D.PulsarTorch.len3",
    "P3D.PulsarTorch.batched_ok",
    "P3D.PulsarTorch.plain_ok",
    "P3D.PulsarTorch.maxOf_spec",
    "P3D.PulsarTorch.value_ok",
    "P3D.PulsarTorch.value_empty",
    "P3D.PulsarTorch.batch_uses",
    "P3D.PulsarTorch.pixelsAgree_spec",
    "P3D.PulsarTorch.pass_inv",
    "P3D.PulsarTorch.run_inv",
    "P3D.PulsarTorch.run_device",
    "P3D.PulsarTorch.wrong_device",
    "P3D.PulsarTorch.no_cuda",
    "P3D.PulsarTorch.imageShape_ok",
    "P3D.PulsarTorch.gradients_spec",
    "P3D.PulsarTorch.camGrads_spec",
    "P3D.PulsarTorch.info_spec",
    "P3D.PulsarTorch.copied_all"
   ],
   "note": ""
  },
  {
   "property": "C137",
   "status": "proved",
   "theorems": [
    "P3D.SqlProv.listsPathOf_spec",
    "P3D.SqlProv.listsFile_spec",
    "P3D.SqlProv.join_absolute",
    "P3D.SqlProv.build_cases",
    "P3D.SqlProv.build_subsets",
    "P3D.SqlProv.build_same",
    "P3D.SqlProv.name_no_batches",
    "P3D.SqlProv.no_assertion",
    "P3D.SqlProv.extendOne_spec",
    "P3D.SqlProv.cloudFrames_spec",
    "P3D.SqlProv.lin_affine",
    "P3D.SqlProv.bilinear_affine",
    "P3D.SqlProv.unnorm_neg",
    "P3D.SqlProv.center_spec",
    "P3D.SqlProv.center_corners",
    "P3D.SqlProv.lin_range",
    "P3D.SqlProv.sample_range",
    "P3D.SqlProv.center_inside",
    "P3D.SqlProv.byte_spec",
    "P3D.SqlProv.drawn_spec"
   ],
   "note": ""
  },
  {
   "property": "C138",
   "status": "proved",
   "theorems": [
    "P3D.Storage.readTuple_length",
    "P3D.Storage.le_length",
    "P3D.Storage.num_le",
    "P3D.Storage.chunks_flatMap",
    "P3D.Storage.var_roundtrip",
    "P3D.Storage.readVar_shape",
    "P3D.Storage.readVar_truncated",
    "P3D.Storage.fixed_roundtrip",
    "P3D.Storage.flat_length",
    "P3D.Storage.nest_flat",
    "P3D.Storage.flat_nest",
    "P3D.Storage.packAll_ok",
    "P3D.Storage.tuple_roundtrip",
    "P3D.Storage.tuple_accepted",
    "P3D.Storage.image_size_back",
    "P3D.Storage.factory_spec",
    "P3D.Storage.loadModel_spec",
    "P3D.Storage.loop_spec",
    "P3D.Storage.sessions_spec",
    "P3D.Storage.resume_repeats",
    "P3D.Storage.last_stored",
    "P3D.Storage.device_spec"
   ],
   "note": ""
  },
  {
   "property": "C139",
   "status": "proved",
   "theorems": [
    "P3D.NerfTest.hasInfix_iff",
    "P3D.NerfTest.loadTest_spec",
    "P3D.NerfTest.loadTest_size",
    "P3D.NerfTest.start_spec",
    "P3D.NerfTest.frameName_inj",
    "P3D.NerfTest.store_get",
    "P3D.NerfTest.film_holds",
    "P3D.NerfTest.store_holds",
    "P3D.NerfTest.film_runs",
    "P3D.NerfTest.film_stale",
    "P3D.NerfTest.exportDir_shared",
    "P3D.NerfTest.u8_spec",
    "P3D.NerfTest.plan_spec"
   ],
   "note": ""
  },
  {
   "property": "C140",
   "status": "proved",
   "theorems": [
    "P3D.FastMath.log_error",
    "P3D.FastMath.value_some",
    "P3D.FastMath.value_eq",
    "P3D.FastMath.value_step",
    "P3D.FastMath.value_lt",
    "P3D.FastMath.pow2Bits_spec",
    "P3D.FastMath.pow2_positive",
    "P3D.FastMath.pow2_overflow",
    "P3D.FastMath.pow2_mono",
    "P3D.FastMath.pow2_clipped",
    "P3D.FastMath.log2_pow2",
    "P3D.FastMath.log_mono",
    "P3D.FastMath.exp_zero",
    "P3D.FastMath.two_rpow_le",
    "P3D.FastMath.one_add_le",
    "P3D.FastMath.pow2_error",
    "P3D.FastMath.exp_error",
    "P3D.FastMath.share_error",
    "P3D.FastMath.draw_behind",
    "P3D.FastMath.draw_true",
    "P3D.FastMath.draw_order"
   ],
   "note": ""
  }
 ]
}