{
 "claims": [
  {
   "property": "C01",
   "status": "proved",
   "theorems": [
    "NBK.FrontPad.frontPad_ok",
    "NBK.FrontPad.frontPad_error",
    "NBK.FrontPad.frontPad_ok_iff"
   ],
   "note": ""
  },
  {
   "property": "C02",
   "status": "proved",
   "theorems": [
    "NBK.Rng.call_stream",
    "NBK.Rng.call_rank_invariant",
    "NBK.Rng.call_not_invariant_without_prefix"
   ],
   "note": "Needs a sampler whose first n items do not depend on how many are requested; the negative theorem shows this hypothesis is needed."
  },
  {
   "property": "C03",
   "status": "proved",
   "theorems": [
    "NBK.Gather.gather_rows",
    "NBK.Gather.gatherStruct_rows",
    "NBK.Gather.gatherStruct_order"
   ],
   "note": ""
  },
  {
   "property": "C04",
   "status": "proved",
   "theorems": [
    "NBK.Gather.scatter_default",
    "NBK.Gather.scatter_counts",
    "NBK.Gather.scatter_bad_counts",
    "NBK.Gather.gather_scatter"
   ],
   "note": ""
  },
  {
   "property": "C05",
   "status": "partial",
   "theorems": [
    "NBK.Gather.gather_reject_iff_partial",
    "NBK.Gather.gatherStruct_names",
    "NBK.Gather.scatter_not_array",
    "NBK.Gather.gather_other_root_never_rejects",
    "NBK.Gather.gather_mismatch_not_rejected",
    "NBK.Gather.scatter_other_root_fails",
    "NBK.Gather.scatter_other_root_garbage"
   ],
   "note": "The property fails in the code for root != 0: the checks are broadcast from rank 0 and Scatterv sends rank 0's buffer. Negations proved; the positive part is for root 0 / Ellipsis."
  },
  {
   "property": "C06",
   "status": "proved",
   "theorems": [
    "NBK.Dist.evenSplit_tiles",
    "NBK.Dist.cempty_ok"
   ],
   "note": ""
  },
  {
   "property": "C07",
   "status": "proved",
   "theorems": [
    "NBK.Dist.uniqueLabels_rank",
    "NBK.Dist.uniqueLabels_dense"
   ],
   "note": ""
  },
  {
   "property": "C08",
   "status": "proved",
   "theorems": [
    "NBK.Dist.bincount_shared",
    "NBK.Dist.bincount_unshared"
   ],
   "note": "Proved for all sorted non-negative labels (dense or not), with arbitrary weights."
  },
  {
   "property": "C09",
   "status": "proved",
   "theorems": [
    "NBK.Dist.concat_global",
    "NBK.Dist.concat_default"
   ],
   "note": "mpsort is modelled by its contract (global sort by key, cut by the output sizes)."
  },
  {
   "property": "C10",
   "status": "partial",
   "theorems": [
    "NBK.Bounds.splitSize3d_partial",
    "NBK.Bounds.splitSize3d_not_sorted"
   ],
   "note": "Product and positivity proved for every rounding; the documented order a<=b<=c is false (s=2, s=6), negation proved."
  },
  {
   "property": "C100",
   "status": "partial",
   "theorems": [
    "NBK.BoxPairs.los_documented",
    "NBK.BoxPairs.los_strings_partial",
    "NBK.BoxPairs.los_two_axes",
    "NBK.BoxPairs.los_float",
    "NBK.BoxPairs.reorder_spec",
    "NBK.BoxPairs.boxSize_partial",
    "NBK.BoxPairs.boxSize_ok",
    "NBK.BoxPairs.boxSize_unchecked",
    "NBK.BoxPairs.shift_partial",
    "NBK.BoxPairs.shift_ok",
    "NBK.BoxPairs.shift_boundary",
    "NBK.BoxPairs.shift_centered",
    "NBK.BoxPairs.catalog_changed",
    "NBK.BoxPairs.column_lost",
    "NBK.BoxPairs.angle_sky",
    "NBK.BoxPairs.angular_counts",
    "NBK.BoxPairs.observers_differ",
    "NBK.BoxPairs.angular_case"
   ],
   "note": "Proved for the documented values. Fails for other parts of the string xyz, floats, sources without BoxSize, positions on the boundary, catalogs around the origin with positive coordinates only, and the columns ra and dec of the user."
  },
  {
   "property": "C101",
   "status": "partial",
   "theorems": [
    "NBK.Ylm.real_addition",
    "NBK.Ylm.complex_addition",
    "NBK.Ylm.real_sum_sq",
    "NBK.Ylm.real_parity",
    "NBK.Ylm.realYlm_angles",
    "NBK.Ylm.complexYlm_angles",
    "NBK.Ylm.legendre_ode",
    "NBK.Ylm.legendre_one",
    "NBK.Ylm.yamamoto_legendre",
    "NBK.Ylm.tpcf_legendre",
    "NBK.Ylm.observer_cell",
    "NBK.Ylm.real_addition_case",
    "NBK.Ylm.tpcf_case",
    "NBK.Ylm.yamamoto_case"
   ],
   "note": "Proved for every degree. Missing: a cell whose centre is at the observer has no direction (nan), which is not excluded (observer_cell)."
  },
  {
   "property": "C102",
   "status": "partial",
   "theorems": [
    "NBK.Multipoles.legendre_orthogonal",
    "NBK.Multipoles.legendre_half",
    "NBK.Multipoles.toPoles_spec_partial",
    "NBK.Multipoles.pole_error_partial",
    "NBK.Multipoles.monopole_exact",
    "NBK.Multipoles.pole_limit",
    "NBK.Multipoles.isotropic_quadrupole",
    "NBK.Multipoles.x_unweighted",
    "NBK.Multipoles.pole_estim",
    "NBK.Multipoles.poles_case",
    "NBK.Multipoles.spec_case"
   ],
   "note": "Proved up to an error (2 ell + 1) M ell (ell + 1) / 4 times the widest bin, and in the limit of many bins; exact for the monopole only: isotropic wedges have a quadrupole (isotropic_quadrupole). The separation is not weighted by the pairs (x_unweighted)."
  },
  {
   "property": "C103",
   "status": "partial",
   "theorems": [
    "NBK.Xi.xi_history",
    "NBK.Xi.run_lin",
    "NBK.Xi.new_iff",
    "NBK.Xi.new_cases",
    "NBK.Xi.damp_spec",
    "NBK.Xi.damp_not_documented",
    "NBK.Xi.attrs_stale",
    "NBK.Xi.xi_case",
    "NBK.Xi.transform_case"
   ],
   "note": "Proved for linear power. FNLGalaxyPower is refused (new_cases), the smoothing is not the documented Gaussian (damp_not_documented), attrs keeps the old cosmology of a Halofit power (attrs_stale)."
  },
  {
   "property": "C104",
   "status": "partial",
   "theorems": [
    "NBK.Xi.call_eq",
    "NBK.Xi.gaussian_partial",
    "NBK.Xi.gaussian_zero",
    "NBK.Xi.bias_published_partial",
    "NBK.Xi.linear_sigma8_scale",
    "NBK.Xi.bias_amplitude",
    "NBK.Xi.bias_redshift"
   ],
   "note": "The root of the power stands in for the transfer function: the bias is the published one only where both agree (bias_published_partial), it depends on sigma8 (bias_amplitude) and counts the redshift twice (bias_redshift). Undefined at k = 0 (gaussian_zero)."
  },
  {
   "property": "C105",
   "status": "partial",
   "theorems": [
    "NBK.SelCoord.sel_partial",
    "NBK.SelCoord.sel_ok_iff",
    "NBK.SelCoord.key_errors",
    "NBK.SelCoord.slice_half_open",
    "NBK.SelCoord.match_unique",
    "NBK.SelCoord.nearest_contains",
    "NBK.SelCoord.nearest_other_bin",
    "NBK.SelCoord.slice_never_last",
    "NBK.SelCoord.slice_open",
    "NBK.SelCoord.list_edges",
    "NBK.SelCoord.full_range",
    "NBK.SelCoord.sel_case",
    "NBK.SelCoord.squeezeOne_spec",
    "NBK.SelCoord.rename_spec",
    "NBK.SelCoord.rename_ok_iff",
    "NBK.SelCoord.rename_unsums"
   ],
   "note": "Upper edges hold for consecutive bins only (list_edges); the last bin is in no slice (slice_never_last, full_range); open slices and steps do not work (slice_open); rename_variable forgets fields_to_sum (rename_unsums)."
  },
  {
   "property": "C106",
   "status": "proved",
   "theorems": [
    "NBK.TaskMgr.enter_spec",
    "NBK.TaskMgr.enter_leaders",
    "NBK.TaskMgr.enter_ok_iff",
    "NBK.TaskMgr.enter_case",
    "NBK.TaskMgr.lockstep",
    "NBK.TaskMgr.ranks_finish",
    "NBK.TaskMgr.ranks_no_deadlock",
    "NBK.TaskMgr.ranks_bound",
    "NBK.TaskMgr.ranks_complete",
    "NBK.TaskMgr.mrun_abs"
   ],
   "note": "Exceptions of the user's function end in os._exit and are outside the model."
  },
  {
   "property": "C107",
   "status": "partial",
   "theorems": [
    "NBK.FftObj.cast_spec",
    "NBK.FftObj.cast_ok_iff",
    "NBK.FftObj.both_spec",
    "NBK.FftObj.arange_spec",
    "NBK.FftObj.arange_bins",
    "NBK.FftObj.cube_even",
    "NBK.FftObj.cube_odd",
    "NBK.FftObj.run_eq",
    "NBK.FftObj.new_eq",
    "NBK.FftObj.new_ok_partial",
    "NBK.FftObj.single_bin",
    "NBK.FftObj.single_mu",
    "NBK.FftObj.attrs_spec",
    "NBK.FftObj.power_rows",
    "NBK.FftObj.modes_total",
    "NBK.FftObj.monopole_1d",
    "NBK.FftObj.monopole_columns",
    "NBK.FftObj.out_wf",
    "NBK.FftObj.saveLoad_partial",
    "NBK.FftObj.load_poles_missing",
    "NBK.FftObj.new_case",
    "NBK.FftObj.same_catalog_twice",
    "NBK.FftObj.single_case",
    "NBK.FftObj.cast_errors",
    "NBK.FftObj.defaults",
    "NBK.FftObj.cube_corr",
    "NBK.FftObj.unique_bins_partial",
    "NBK.FftObj.pole_columns",
    "NBK.FftObj.NBK.FftObj.poles_apart",
    "NBK.FftObj.NBK.FftObj.poles_case",
    "NBK.FftObj.NBK.FftObj.kmax_cuts",
    "NBK.FftObj.NBK.FftObj.cut_case",
    "NBK.FftObj.NBK.FftObj.arange_prefix",
    "NBK.FftObj.NBK.FftObj.statData_cut",
    "NBK.FftObj.NBK.FftObj.poleData_cut",
    "NBK.FftObj.NBK.FftObj.wide_bins",
    "NBK.FftObj.NBK.FftObj.wide_case",
    "NBK.FftObj.NBK.FftObj.statData_wide",
    "NBK.FftObj.NBK.FftObj.wide_sum",
    "NBK.FftObj.NBK.FftObj.mean_total",
    "NBK.FftObj.NBK.FftObj.entries",
    "NBK.FftObj.NBK.FftObj.wide_poles",
    "NBK.FftObj.NBK.FftObj.wide_poles_case",
    "NBK.FftObj.NBK.FftObj.sums_wide",
    "NBK.FftObj.NBK.FftObj.poleData_wide",
    "NBK.FftObj.NBK.FftObj.wide_mu",
    "NBK.FftObj.NBK.FftObj.mu_case",
    "NBK.FftObj.NBK.FftObj.inMu_iff",
    "NBK.FftObj.NBK.FftObj.mu_pieces",
    "NBK.FftObj.NBK.FftObj.statData_mu"
   ],
   "note": "A single k bin is an IndexError, one mu bin in 2d a ValueError, the same catalog passed twice has no shot noise, and loading a result without multipoles leaves no attribute poles; with an odd number of cells the default bins end half a mode below Nyquist."
  },
  {
   "property": "C108",
   "status": "partial",
   "theorems": [
    "NBK.PcfObj.pairs_spec",
    "NBK.PcfObj.pairs_columns",
    "NBK.PcfObj.mu_edges",
    "NBK.PcfObj.pi_edges",
    "NBK.PcfObj.pc_saveLoad_partial",
    "NBK.PcfObj.counter_spec",
    "NBK.PcfObj.analytic_spec",
    "NBK.PcfObj.no_randoms",
    "NBK.PcfObj.default_randoms",
    "NBK.PcfObj.angular_needs_attr",
    "NBK.PcfObj.ls_spec",
    "NBK.PcfObj.natural_1d",
    "NBK.PcfObj.natural_counts",
    "NBK.PcfObj.natural_1d_cross",
    "NBK.PcfObj.angular_second_needs_attr",
    "NBK.PcfObj.wrong_arguments",
    "NBK.PcfObj.precomputed",
    "NBK.PcfObj.precomputed_loaded",
    "NBK.PcfObj.cross_case",
    "NBK.PcfObj.rows_entry",
    "NBK.PcfObj.wp_spec",
    "NBK.PcfObj.saveLoad_partial",
    "NBK.PcfObj.random_pairs_mislabelled",
    "NBK.PcfObj.sums_lost",
    "NBK.PcfObj.survey_as_box"
   ],
   "note": "Proved in full for the bins, the choice of counter and estimator and the values. The round trip holds only up to metadata: total_wnpairs of the pairs and the columns to be summed are lost, and random pairs supplied by the caller take the bins of the data (proved with witnesses); wp always fails for pimax < 2."
  },
  {
   "property": "C109",
   "status": "partial",
   "theorems": [
    "NBK.ConvObj.compensation_window",
    "NBK.ConvObj.poles_one",
    "NBK.ConvObj.copyMeta_spec",
    "NBK.ConvObj.sameAlpha_spec",
    "NBK.ConvObj.cast_spec",
    "NBK.ConvObj.cast_errors",
    "NBK.ConvObj.valid_iff",
    "NBK.ConvObj.checks",
    "NBK.ConvObj.compensation_spec",
    "NBK.ConvObj.frame",
    "NBK.ConvObj.cleared",
    "NBK.ConvObj.boxes",
    "NBK.ConvObj.bins_spec",
    "NBK.ConvObj.no_bins",
    "NBK.ConvObj.result_spec",
    "NBK.ConvObj.saveLoad_partial",
    "NBK.ConvObj.load_old",
    "NBK.ConvObj.unknown_format",
    "NBK.ConvObj.failing_run",
    "NBK.ConvObj.twice",
    "NBK.ConvObj.flags_ignored",
    "NBK.ConvObj.auto_case",
    "NBK.ConvObj.cross_case",
    "NBK.ConvObj.history_matters"
   ],
   "note": "The constructor changes the meshes of the caller (actions, compensated flag, box), so later results depend on it (history_matters); after load the attribute edges and the names of the variables to sum are missing; an unknown format gives an empty object. Repeating the same call is idempotent (twice), and the flags never matter (flags_ignored)."
  },
  {
   "property": "C11",
   "status": "partial",
   "theorems": [
    "NBK.Bounds.getDataBounds_extrema",
    "NBK.Bounds.getDataBounds_ok_iff_partial",
    "NBK.Bounds.getDataBounds_fails"
   ],
   "note": "The extrema part is proved in full; 'never fails while one row is selected' is false: it raises exactly when some rank with rows has a chunk without selected rows (iff proved, with witness)."
  },
  {
   "property": "C110",
   "status": "partial",
   "theorems": [
    "NBK.FofObj.checks",
    "NBK.FofObj.linking_spec",
    "NBK.FofObj.linking_dim",
    "NBK.FofObj.box_lost",
    "NBK.FofObj.scalar_box",
    "NBK.FofObj.labels_spec",
    "NBK.FofObj.peak_group",
    "NBK.FofObj.catalog_spec",
    "NBK.FofObj.features_spec",
    "NBK.FofObj.halos_spec",
    "NBK.FofObj.fof_halos",
    "NBK.FofObj.features_errors",
    "NBK.FofObj.findPeaks_fails",
    "NBK.FofObj.attrs_spec",
    "NBK.FofObj.box_halos"
   ],
   "note": "fof_halos is the full claim for a box of three numbers and positions inside it. Negations: a scalar BoxSize changes the relative linking length (scalar_box) and makes find_features and to_halos fail with a TypeError (features_errors); an empty rank is a ValueError; fof_find_peaks always fails."
  },
  {
   "property": "C111",
   "status": "partial",
   "theorems": [
    "NBK.FiberObj.fibers_partial",
    "NBK.FiberObj.near_small",
    "NBK.FiberObj.single_fails",
    "NBK.FiberObj.empty_fails",
    "NBK.FiberObj.pair_collides",
    "NBK.FiberObj.pair_world",
    "NBK.FiberObj.antipodes",
    "NBK.FiberObj.chord_not_angle"
   ],
   "note": "The separation, neighbors, labels and pairs are proved for all inputs with at least two objects per rank. False in the code: objects linked by the chord rather than the angle, links through the periodic box from 0.2 rad, ranks with fewer than two objects, and NeighborID is nearest within the group only."
  },
  {
   "property": "C112",
   "status": "partial",
   "theorems": [
    "NBK.CgmObj.valid_iff",
    "NBK.CgmObj.sorted_spec",
    "NBK.CgmObj.groups_partial",
    "NBK.CgmObj.rejects",
    "NBK.CgmObj.arguments_meaning",
    "NBK.CgmObj.source_box",
    "NBK.CgmObj.no_box",
    "NBK.CgmObj.hard_origind_fails",
    "NBK.CgmObj.empty_rank_fails",
    "NBK.CgmObj.origin_lost",
    "NBK.CgmObj.grid_wrong",
    "NBK.CgmObj.last_wins",
    "NBK.CgmObj.one_world",
    "NBK.CgmObj.three_groups",
    "NBK.CgmObj.linspace_spec"
   ],
   "note": "The groups, labels, counts and the order are proved for nonnegative or integer ranking columns, no empty rank, positions in the box, and no object at the origin without a fixed line of sight. False in the code: a user column origind is lost or makes the grouping fail at its end, empty ranks, objects at the origin get label -1, and the grid of the decomposition starts at the least x on all axes. That the decomposition sends the needed ghosts is assumed."
  },
  {
   "property": "C113",
   "status": "partial",
   "theorems": [
    "NBK.FileObj.select_rows",
    "NBK.FileObj.file_rows",
    "NBK.FileObj.select_select",
    "NBK.FileObj.column_select",
    "NBK.FileObj.select_rejects",
    "NBK.FileObj.column_rows",
    "NBK.FileObj.asarray_rows",
    "NBK.FileObj.array_entry",
    "NBK.FileObj.asarray_rejects",
    "NBK.FileObj.dask_column_partial",
    "NBK.FileObj.binary_opens",
    "NBK.FileObj.binary_offsets",
    "NBK.FileObj.binary_rejects",
    "NBK.FileObj.tpm_opens",
    "NBK.FileObj.tpm_rejects",
    "NBK.FileObj.stack_opens",
    "NBK.FileObj.stack_glob",
    "NBK.FileObj.stack_rejects",
    "NBK.FileObj.fits_opens",
    "NBK.FileObj.fits_rejects",
    "NBK.FileObj.matrix_wrong",
    "NBK.FileObj.dask_after_asarray",
    "NBK.FileObj.aligned_wrong",
    "NBK.FileObj.aligned_size",
    "NBK.FileObj.header_too_large",
    "NBK.FileObj.image_first",
    "NBK.FileObj.name_type_error",
    "NBK.FileObj.stack_mixed",
    "NBK.FileObj.ten_before_two",
    "NBK.FileObj.demo_case",
    "NBK.FileObj.demo_dask"
   ],
   "note": "False for columns of matrices (rows multiplied, dask array fails), aligned data types, headers larger than the file, FITS files with an image first, extensions without table given by name (TypeError), stacks of files with different columns; backward and empty slices are C25. numpy, dask and fitsio are modelled by their documentation."
  },
  {
   "property": "C114",
   "status": "partial",
   "theorems": [
    "NBK.CsvObj.open_iff",
    "NBK.CsvObj.open_errors",
    "NBK.CsvObj.open_fields",
    "NBK.CsvObj.open_types",
    "NBK.CsvObj.open_prefix",
    "NBK.CsvObj.read_partial",
    "NBK.CsvObj.column_partial",
    "NBK.CsvObj.misfit_fails",
    "NBK.CsvObj.good_case",
    "NBK.CsvObj.regular_case",
    "NBK.CsvObj.late_rows",
    "NBK.CsvObj.wrong_type_accepted",
    "NBK.CsvObj.python_engine_bits",
    "NBK.CsvObj.long_row",
    "NBK.CsvObj.keywords_case",
    "NBK.CsvObj.open_sep",
    "NBK.CsvObj.column_unknown",
    "NBK.CsvObj.promote_entry",
    "NBK.CsvObj.python_promotes"
   ],
   "note": "Acceptance, exceptions and types are proved in full. The values are proved for the engine 'c' when the lines are counted right (C28) and all the rows fit the types. Otherwise the claim is false (witnesses): rows behind the first ten are not inspected and one misfit makes its whole block unreadable, a given type is not checked, the engine 'python' returns reinterpreted bytes, a long row at the start of a block is cut silently."
  },
  {
   "property": "C115",
   "status": "partial",
   "theorems": [
    "NBK.Plain.from_plaintext_1d_partial",
    "NBK.Plain.from_plaintext_2d_partial",
    "NBK.Plain.read1D_write",
    "NBK.Plain.read2D_write",
    "NBK.Plain.get_update",
    "NBK.Plain.read1D_ends_partial",
    "NBK.Plain.hangs",
    "NBK.Plain.result_consistent",
    "NBK.Plain.from_plaintext_errors",
    "NBK.Plain.case_1d",
    "NBK.Plain.case_2d",
    "NBK.Plain.reads_forever",
    "NBK.Plain.edges_as_names",
    "NBK.Plain.blank_line",
    "NBK.Plain.edges_in_name",
    "NBK.Plain.foreign_imag",
    "NBK.Plain.columns_lost",
    "NBK.Plain.metadata_values",
    "NBK.Plain.metadata_names",
    "NBK.Plain.truncated",
    "NBK.Plain.ragged_2d",
    "NBK.Plain.wrong_dims",
    "NBK.Plain.slice_spec",
    "NBK.Plain.unknown_type",
    "NBK.Plain.metaLine_ok",
    "NBK.Plain.reshape_ok",
    "NBK.Plain.default_names"
   ],
   "note": "Files in the documented layout are read back, in one and two dimensions, and every object made is consistent. Not for every file: a count of -1 makes the reader loop forever; the line of edges names the columns if there is no other header; a blank line or a column name with the word edges makes the file unreadable; the imaginary part of another column is taken; bool('False') is True and any builtin named in the file is called; three dimensions give an UnboundLocalError."
  },
  {
   "property": "C116",
   "status": "partial",
   "theorems": [
    "NBK.SpecObj.equal_lengths",
    "NBK.SpecObj.meshVec_num",
    "NBK.SpecObj.multi_ok_iff",
    "NBK.SpecObj.multi_errors",
    "NBK.SpecObj.attrs_of_species_partial",
    "NBK.SpecObj.attrs_own",
    "NBK.SpecObj.found_eq",
    "NBK.SpecObj.meta_spec_partial",
    "NBK.SpecObj.equal_numbers",
    "NBK.SpecObj.equal_vectors",
    "NBK.SpecObj.getitem_spec_partial",
    "NBK.SpecObj.columns_spec",
    "NBK.SpecObj.checkColumns_iff",
    "NBK.SpecObj.toMesh_iff",
    "NBK.SpecObj.toMesh_fits",
    "NBK.SpecObj.meshItem_spec",
    "NBK.SpecObj.meshItem_other",
    "NBK.SpecObj.later_ignored",
    "NBK.SpecObj.species_case",
    "NBK.SpecObj.box_errors",
    "NBK.SpecObj.names_shared",
    "NBK.SpecObj.species_keyword",
    "NBK.SpecObj.dotted_names",
    "NBK.SpecObj.slash_name",
    "NBK.SpecObj.stale_box"
   ],
   "note": "Holds for names without dots and slashes; negations: the list of names is shared with the caller, a keyword species replaces it, dotted names let an attribute of one species stand for one of another, columns of a species with a slash are listed but cannot be had, a species without a box is not checked, boxes changed later play no role."
  },
  {
   "property": "C117",
   "status": "partial",
   "theorems": [
    "NBK.LogObj.three_spec",
    "NBK.LogObj.source_depends",
    "NBK.LogObj.missing",
    "NBK.LogObj.image_unique",
    "NBK.LogObj.catalog_spec_partial",
    "NBK.LogObj.no_objects",
    "NBK.LogObj.mean_number",
    "NBK.LogObj.attrs_spec_partial",
    "NBK.LogObj.reproduce",
    "NBK.LogObj.ranks_irrelevant",
    "NBK.LogObj.positions_of_plin",
    "NBK.LogObj.ex_given",
    "NBK.LogObj.ex_ok",
    "NBK.LogObj.cosmo_stale",
    "NBK.LogObj.mod_exact",
    "NBK.LogObj.mod_edge"
   ],
   "note": "Holds with exact numbers; the place within the cell is that of C78 (wrong for cells that are not cubes). Negations: attrs['cosmo'] is that of Plin.attrs although another cosmology was passed and used, positions do not depend on the redshift passed, and with rounding a position can be at the far edge of the box."
  },
  {
   "property": "C118",
   "status": "partial",
   "theorems": [
    "NBK.TpcfObj.place_spec",
    "NBK.TpcfObj.sim_spec_partial",
    "NBK.TpcfObj.survey_spec_partial",
    "NBK.TpcfObj.layout_irrelevant_partial",
    "NBK.TpcfObj.image_irrelevant",
    "NBK.TpcfObj.multipoles_unique",
    "NBK.TpcfObj.few_objects",
    "NBK.TpcfObj.refused",
    "NBK.TpcfObj.survey_refused",
    "NBK.TpcfObj.box_spec",
    "NBK.TpcfObj.gathered_perm",
    "NBK.TpcfObj.iell_spec",
    "NBK.TpcfObj.fill_spec",
    "NBK.TpcfObj.eval_spec",
    "NBK.TpcfObj.call_spec",
    "NBK.TpcfObj.load_save_partial",
    "NBK.TpcfObj.data_ok",
    "NBK.TpcfObj.no_bins",
    "NBK.TpcfObj.tuple_edges",
    "NBK.TpcfObj.sim_case",
    "NBK.TpcfObj.ex_sep",
    "NBK.TpcfObj.survey_case",
    "NBK.TpcfObj.box_sides",
    "NBK.TpcfObj.data_at"
   ],
   "note": "kdcount and pmesh are contracts; the results need more than nine objects per rank (few_objects: a ZeroDivisionError of the progress message otherwise); files keep what Verif.Json keeps (no_bins, tuple_edges)"
  },
  {
   "property": "C119",
   "status": "partial",
   "theorems": [
    "NBK.CosmoObj.oldAstropy_masses",
    "NBK.CosmoObj.deprecated_defaults",
    "NBK.CosmoObj.positional_order",
    "NBK.CosmoObj.getattr_spec",
    "NBK.CosmoObj.history_irrelevant",
    "NBK.CosmoObj.property_spec",
    "NBK.CosmoObj.setattr_spec",
    "NBK.CosmoObj.setattr_harmless_partial",
    "NBK.CosmoObj.dir_spec",
    "NBK.CosmoObj.new_spec",
    "NBK.CosmoObj.compile_keywords",
    "NBK.CosmoObj.positional_partial",
    "NBK.CosmoObj.positional_conflict",
    "NBK.CosmoObj.refused",
    "NBK.CosmoObj.deprecated_partial",
    "NBK.CosmoObj.deprecated_case",
    "NBK.CosmoObj.round_trips",
    "NBK.CosmoObj.own_dict",
    "NBK.CosmoObj.from_dict_alias",
    "NBK.CosmoObj.from_astropy_spec",
    "NBK.CosmoObj.from_astropy_conflict",
    "NBK.CosmoObj.object_case",
    "NBK.CosmoObj.alias_case",
    "NBK.CosmoObj.from_astropy_case",
    "NBK.CosmoObj.number_iff"
   ],
   "note": "classylss and astropy are contracts; a positional argument is not checked against the keywords (positional_conflict), the old signature leaves out defaults (deprecated_partial, deprecated_case), from_dict and copy.copy share the dictionary (from_dict_alias), and pars or the name of a delegate class can be assigned (object_case)"
  },
  {
   "property": "C12",
   "status": "partial",
   "theorems": [
    "NBK.Batch.splitRanks_all_partial",
    "NBK.Batch.splitRanks_single",
    "NBK.Batch.splitRanks_some"
   ],
   "note": "Everything holds except for a single rank with include_all, where an empty group is yielded (proved)."
  },
  {
   "property": "C120",
   "status": "partial",
   "theorems": [
    "NBK.HaloObj.slice_six",
    "NBK.HaloObj.stack_rows",
    "NBK.HaloObj.new_ok_iff",
    "NBK.HaloObj.new_spec",
    "NBK.HaloObj.missing_column",
    "NBK.HaloObj.no_catalog",
    "NBK.HaloObj.formulas_scalar",
    "NBK.HaloObj.formulas_pointwise",
    "NBK.HaloObj.formulas_refuse",
    "NBK.HaloObj.formulas_one_mass",
    "NBK.HaloObj.dispersion_mdef",
    "NBK.HaloObj.run_state",
    "NBK.HaloObj.columns_live",
    "NBK.HaloObj.derived_spec",
    "NBK.HaloObj.refused_unchanged",
    "NBK.HaloObj.to_halotools_spec",
    "NBK.HaloObj.to_halotools_refused",
    "NBK.HaloObj.slice_spec",
    "NBK.HaloObj.slice_refused",
    "NBK.HaloObj.slice_consistent",
    "NBK.HaloObj.zheng_spec",
    "NBK.HaloObj.zheng_conflict",
    "NBK.HaloObj.zheng_key_name",
    "NBK.HaloObj.prebuilt_spec",
    "NBK.HaloObj.prebuilt_key_ignored",
    "NBK.HaloObj.populate_class",
    "NBK.HaloObj.populate_zheng",
    "NBK.HaloObj.populate_model",
    "NBK.HaloObj.populate_base",
    "NBK.HaloObj.locate_spec",
    "NBK.HaloObj.demo_spec",
    "NBK.HaloObj.halo_case",
    "NBK.HaloObj.table_case",
    "NBK.HaloObj.live_case",
    "NBK.HaloObj.slice_case",
    "NBK.HaloObj.mdef_stale",
    "NBK.HaloObj.keyword_case",
    "NBK.HaloObj.demo_case"
   ],
   "note": "Everything holds except: the name in concentration_key is used by no model (zheng_key_name; the factory models ignore the key altogether, prebuilt_key_ignored); an instance of a class of nbodykit.hod is a TypeError although documented (populate_model); changing attrs['mdef'] leaves the names of the mass and radius columns, so that the model asks for a column the table lacks (mdef_stale); a non catalog without the columns is a ValueError (no_catalog). Formulas of halotools are given by the environment."
  },
  {
   "property": "C121",
   "status": "partial",
   "theorems": [
    "NBK.ArrObj.new_spec",
    "NBK.ArrObj.new_ok_iff",
    "NBK.ArrObj.all_or_none",
    "NBK.ArrObj.dtype_eq_iff",
    "NBK.ArrObj.run_obj",
    "NBK.ArrObj.refused_unchanged",
    "NBK.ArrObj.column_now",
    "NBK.ArrObj.column_assigned",
    "NBK.ArrObj.fields_fixed",
    "NBK.ArrObj.dict_live",
    "NBK.ArrObj.dict_add",
    "NBK.ArrObj.fields_sizes",
    "NBK.ArrObj.index_spec",
    "NBK.ArrObj.attr_local",
    "NBK.ArrObj.attr_set",
    "NBK.ArrObj.saved_no_attrs",
    "NBK.ArrObj.read_spec",
    "NBK.ArrObj.saved_spec",
    "NBK.ArrObj.persist_spec",
    "NBK.ArrObj.persist_refused",
    "NBK.ArrObj.mismatch_stuck",
    "NBK.ArrObj.plain_stuck",
    "NBK.ArrObj.new_cases",
    "NBK.ArrObj.dict_breaks_size",
    "NBK.ArrObj.dict_breaks_column",
    "NBK.ArrObj.write_seen",
    "NBK.ArrObj.attrs_case",
    "NBK.ArrObj.persist_case",
    "NBK.ArrObj.hypotheses_met",
    "NBK.ArrObj.columns_step"
   ],
   "note": "Full except: an inconsistency raises only on the ranks that see it, all others wait for ever (mismatch_stuck, plain_stuck, new_cases are the negation); a dictionary is held by reference, so columns can change their length or vanish (dict_breaks_size, dict_breaks_column; for structured arrays fields_sizes is the positive part); attributes of columns are never stored (saved_no_attrs, the negation of the docstring of save)."
  },
  {
   "property": "C122",
   "status": "partial",
   "theorems": [
    "NBK.MeshObj.toField_spec",
    "NBK.MeshObj.compute_spec",
    "NBK.MeshObj.apply_then",
    "NBK.MeshObj.compute_mode",
    "NBK.MeshObj.preview_spec",
    "NBK.MeshObj.preview_right",
    "NBK.MeshObj.broken_spec",
    "NBK.MeshObj.unit_mean",
    "NBK.MeshObj.linear_reported",
    "NBK.MeshObj.linear_attrs",
    "NBK.MeshObj.newMesh_spec",
    "NBK.MeshObj.makes_extends",
    "NBK.MeshObj.run_extends",
    "NBK.MeshObj.compute_again",
    "NBK.MeshObj.mesh_fixed",
    "NBK.MeshObj.field_untouched",
    "NBK.MeshObj.step_wf",
    "NBK.MeshObj.run_wf",
    "NBK.MeshObj.setAttr_local",
    "NBK.MeshObj.view_shares",
    "NBK.MeshObj.result_shares",
    "NBK.MeshObj.resampled_reports",
    "NBK.MeshObj.array_root",
    "NBK.MeshObj.array_spec",
    "NBK.MeshObj.array_complex",
    "NBK.MeshObj.agree_run",
    "NBK.MeshObj.view_reported",
    "NBK.MeshObj.apply_iff",
    "NBK.MeshObj.apply_spec",
    "NBK.MeshObj.preview_wrong",
    "NBK.MeshObj.seed_misreported",
    "NBK.MeshObj.box_overwritten",
    "NBK.MeshObj.array_cases",
    "NBK.MeshObj.untransposed_case",
    "NBK.MeshObj.filter_cases",
    "NBK.MeshObj.resample_case",
    "NBK.MeshObj.box_lengths",
    "NBK.MeshObj.write_length",
    "NBK.MeshObj.truthy_iff"
   ],
   "note": "Full except: preview ignores the actions (preview_spec, preview_wrong); keywords of ArrayMesh are dropped (array_root, array_spec, array_cases) and complex arrays of an odd side lose a cell (array_complex); arrays in attrs are shared between meshes, views and fields (view_shares, result_shares, box_overwritten); a resampled field reports the old Nmesh (resampled_reports); a view can report a seed that was not used (seed_misreported; view_reported is the positive part); complex fields of other classes cannot be computed (broken_spec)."
  },
  {
   "property": "C123",
   "status": "partial",
   "theorems": [
    "NBK.StatObj.squeeze_which",
    "NBK.StatObj.shapes_agree",
    "NBK.StatObj.others_kept",
    "NBK.StatObj.independent_partial",
    "NBK.StatObj.copy_obs",
    "NBK.StatObj.squeeze_obs",
    "NBK.StatObj.take_obs",
    "NBK.StatObj.slices_obs",
    "NBK.StatObj.names_obs",
    "NBK.StatObj.slices_shared",
    "NBK.StatObj.names_shared",
    "NBK.StatObj.copy_edges_shared",
    "NBK.StatObj.selection_edges",
    "NBK.StatObj.edges_apart",
    "NBK.StatObj.attrs_shared",
    "NBK.StatObj.fsum_shared",
    "NBK.StatObj.default_fsum_shared",
    "NBK.StatObj.setItem_obs",
    "NBK.StatObj.newNames_packed",
    "NBK.StatObj.setItem_packed",
    "NBK.StatObj.setItem_always_partial",
    "NBK.StatObj.base_case",
    "NBK.StatObj.not_independent_slices",
    "NBK.StatObj.setItem_cuts",
    "NBK.StatObj.not_independent_names",
    "NBK.StatObj.gap_becomes_variable",
    "NBK.StatObj.gap_refused",
    "NBK.StatObj.order_refused",
    "NBK.StatObj.wrong_place",
    "NBK.StatObj.not_independent_edges",
    "NBK.StatObj.not_independent_attrs",
    "NBK.StatObj.not_independent_fsum",
    "NBK.StatObj.apart_case",
    "NBK.StatObj.apart_kept",
    "NBK.StatObj.fromState_obs",
    "NBK.StatObj.fromState_mask",
    "NBK.StatObj.reindex_obs",
    "NBK.StatObj.all_integers",
    "NBK.StatObj.fieldNames_at"
   ],
   "note": "Independence holds for variables, masks, renaming, setting variables and setting attrs entries in programs without indexing by slices alone or by names; in general it fails: slices and selections of variables are windows on the original, copies share the arrays of edges and coordinates, attrs values and the default list of summed fields are shared. Setting a variable always works for records without gaps; after a selection of variables it can add a spurious variable or raise ValueError. Only arrays whose fields have one size are modelled."
  },
  {
   "property": "C124",
   "status": "partial",
   "theorems": [
    "NBK.Wget.splitUrl_spec",
    "NBK.Wget.resolve_absolute",
    "NBK.Wget.resolve_again",
    "NBK.Wget.opened_below",
    "NBK.Wget.same_host_partial",
    "NBK.Wget.stays_below_partial",
    "NBK.Wget.readAll_flatten",
    "NBK.Wget.mirror_tree",
    "NBK.Wget.small_case",
    "NBK.Wget.self_link",
    "NBK.Wget.parent_link_escapes",
    "NBK.Wget.other_host",
    "NBK.Wget.sibling_taken",
    "NBK.Wget.html_page_aborts",
    "NBK.Wget.html_page_saved",
    "NBK.Wget.empty_directory",
    "NBK.Wget.collision",
    "NBK.Wget.other_links_abort",
    "NBK.Wget.target_is_file",
    "NBK.Wget.join_split",
    "NBK.Wget.examples_sorted",
    "NBK.Wget.examples_mem",
    "NBK.Wget.member_listed",
    "NBK.Wget.no_directory",
    "NBK.Wget.download_files",
    "NBK.Wget.download_first_error",
    "NBK.Wget.download_case",
    "NBK.Wget.unknown_example",
    "NBK.Wget.examples_case",
    "NBK.Wget.examples_twice",
    "NBK.Wget.nested_file",
    "NBK.Wget.nested_404",
    "NBK.Wget.dotdot_name",
    "NBK.Wget.hrefs_spec",
    "NBK.Wget.scheme_letters",
    "NBK.Wget.listing_error",
    "NBK.Wget.html_ending"
   ],
   "note": "mirror_tree: all served trees, orders and file systems. Not true in general, shown by witnesses: links '../' write outside the target, './' recurse to the limit, a URL without a path lets another host in, siblings with the same beginning are taken, HTML pages with links abort, empty directories become name.html, pages collide; stays_below_partial and same_host_partial state the conditions under which the claims hold."
  },
  {
   "property": "C125",
   "status": "partial",
   "theorems": [
    "NBK.Setup.exec_unique",
    "NBK.Setup.use_mpi_effect",
    "NBK.Setup.use_distributed_effect",
    "NBK.Setup.use_mpi_not_default",
    "NBK.Setup.pickle_roundtrip",
    "NBK.Setup.pickle_which",
    "NBK.Setup.one_handler",
    "NBK.Setup.logging_effect",
    "NBK.Setup.cache_and_names",
    "NBK.Setup.scope_restores_partial",
    "NBK.Setup.current_alive_partial",
    "NBK.Setup.tm_frees",
    "NBK.Setup.tm_exception_fatal",
    "NBK.Setup.tm_error",
    "NBK.Setup.is_worker_spec",
    "NBK.Setup.nested_case",
    "NBK.Setup.unbalanced_push",
    "NBK.Setup.caught_inside",
    "NBK.Setup.entered_twice",
    "NBK.Setup.entered_again",
    "NBK.Setup.half_distributed",
    "NBK.Setup.half_options",
    "NBK.Setup.no_client",
    "NBK.Setup.stale_object",
    "NBK.Setup.is_worker_after",
    "NBK.Setup.inner_of_one"
   ],
   "note": "scope_restores_partial and current_alive_partial need nested scopes and no handler inside a scope; unbalanced_push and caught_inside show that they fail otherwise. Collective calls are taken to be met by the other ranks."
  },
  {
   "property": "C126",
   "status": "partial",
   "theorems": [
    "NBK.Setup.Cluster.setup_once",
    "NBK.Setup.Cluster.all_done",
    "NBK.Setup.Cluster.few_requests",
    "NBK.Setup.Cluster.no_deadlock",
    "NBK.Setup.Cluster.returns_ready_partial",
    "NBK.Setup.Cluster.two_clients",
    "NBK.Setup.Cluster.returns_early",
    "NBK.Setup.Cluster.key_error_seen",
    "NBK.Setup.Cluster.lost_client",
    "NBK.Setup.Cluster.lost_client_case"
   ],
   "note": "returns_ready_partial needs that no wait for the lock is given up and that no client is lost; returns_early and lost_client are the negations. register_worker_callbacks is one step."
  },
  {
   "property": "C127",
   "status": "partial",
   "theorems": [
    "NBK.CatMesh.rows_spec",
    "NBK.CatMesh.rows_ok_iff",
    "NBK.CatMesh.rows_cut",
    "NBK.CatMesh.rows_case",
    "NBK.CatMesh.compute_spec",
    "NBK.CatMesh.compute_view",
    "NBK.CatMesh.toReal_root",
    "NBK.CatMesh.toMesh_spec",
    "NBK.CatMesh.toMesh_ok_iff",
    "NBK.CatMesh.compute_stable",
    "NBK.CatMesh.wf_run",
    "NBK.CatMesh.program_ok",
    "NBK.CatMesh.toMesh_keeps",
    "NBK.CatMesh.program_keeps",
    "NBK.CatMesh.set_spec",
    "NBK.CatMesh.resampler_spec",
    "NBK.CatMesh.assign_spec",
    "NBK.CatMesh.compute_attrs",
    "NBK.CatMesh.paintInto_spec",
    "NBK.CatMesh.paintInto_view",
    "NBK.CatMesh.field_case",
    "NBK.CatMesh.settings_case",
    "NBK.CatMesh.view_mixed",
    "NBK.CatMesh.view_ignored",
    "NBK.CatMesh.window_case",
    "NBK.CatMesh.stale_stats",
    "NBK.CatMesh.into_case",
    "NBK.CatMesh.argMesh_iff",
    "NBK.CatMesh.keyword_wins",
    "NBK.CatMesh.flags_sum",
    "NBK.CatMesh.truth_false",
    "NBK.CatMesh.apply_last",
    "NBK.CatMesh.view_ignores"
   ],
   "note": "Proved: meaning of to_mesh and compute, stability in all programs, settings, columns, attributes of the result. False as stated, with witnesses: a column longer than the catalog is cut silently when the chunk size divides the number of objects (rows_cut, rows_case); a view keeps the compensation of the time it was made while painting follows the settings of now (view_mixed); settings, columns and attributes assigned to a view are ignored (view_ignored); to_mesh accepts windows for which compute raises (window_case); attributes N, W, shotnoise of the catalog hide those of the painting (stale_stats); a view ignores out and normalize (paintInto_view, into_case)."
  },
  {
   "property": "C128",
   "status": "partial",
   "theorems": [
    "NBK.CatObj.read_run",
    "NBK.CatObj.untouched",
    "NBK.CatObj.family",
    "NBK.CatObj.columns_sized",
    "NBK.CatObj.view_spec",
    "NBK.CatObj.copy_spec",
    "NBK.CatObj.copy_columns",
    "NBK.CatObj.copy_ok_iff",
    "NBK.CatObj.copy_refused",
    "NBK.CatObj.slice_spec",
    "NBK.CatObj.slice_ok_iff",
    "NBK.CatObj.slice_ellipsis",
    "NBK.CatObj.select_spec",
    "NBK.CatObj.select_ok_iff",
    "NBK.CatObj.attrs_step",
    "NBK.CatObj.attrs_run",
    "NBK.CatObj.attrs_together",
    "NBK.CatObj.shares_run",
    "NBK.CatObj.shares_new",
    "NBK.CatObj.csize_sum",
    "NBK.CatObj.size_run",
    "NBK.CatObj.small_slice_follows",
    "NBK.CatObj.copy_saves_defaults",
    "NBK.CatObj.copy_needs_attrs",
    "NBK.CatObj.reserved_names",
    "NBK.CatObj.rows_out_of_range",
    "NBK.CatObj.attrs_by_order",
    "NBK.CatObj.hard_column_of_slice",
    "NBK.CatObj.typed_view_copy",
    "NBK.CatObj.classes_of_views",
    "NBK.CatObj.set_through_view",
    "NBK.CatObj.two_ranks",
    "NBK.CatObj.one_rank_raises",
    "NBK.CatObj.selectable"
   ],
   "note": "Proved for all programs, with every column of a view's class assumed to be one of the owner's (`Tame`) where lengths are concerned; `typed_view_copy` shows that lengths are wrong without it. Chunks of dask arrays, the attrs of columns (topic ArrObj) and sorting, saving and gathering (other topics) are not part of these programs. Negations: small slices are not decoupled from the caller's arrays; copies and selections turn default columns into saved ones; copies fail when attrs was never used; columns called cls, size or comm make slices fail; indices out of range pass on catalogs without columns; attrs are shared or not depending on when they were first used; get_hardcolumn of a slice is not sliced; an index that fits on one rank only leaves that rank waiting."
  },
  {
   "property": "C129",
   "status": "partial",
   "theorems": [
    "NBK.Nbody.unmarshal",
    "NBK.Nbody.func_modes",
    "NBK.Nbody.integrate_spec",
    "NBK.Nbody.integrate_refused",
    "NBK.Nbody.vector_ode_iff",
    "NBK.Nbody.momentum_conserved",
    "NBK.Nbody.species_together",
    "NBK.Nbody.fluids_spec",
    "NBK.Nbody.seed_gauge",
    "NBK.Nbody.seed_rows",
    "NBK.Nbody.seed_cdm",
    "NBK.Nbody.seed_baryons_iff",
    "NBK.Nbody.seed_baryons_wrong"
   ],
   "note": "Proved for real numbers with a solver that returns the values of a function. Negation: the velocity divergence of baryons and neutrinos is not multiplied by a0/H0, so their momenta are right only if it vanishes."
  },
  {
   "property": "C13",
   "status": "proved",
   "theorems": [
    "NBK.Batch.run_bound",
    "NBK.Batch.no_deadlock",
    "NBK.Batch.at_most_once",
    "NBK.Batch.map_result"
   ],
   "note": "Both buffered and rendezvous sends. A worker group is one process; exceptions in the user function are not modelled."
  },
  {
   "property": "C130",
   "status": "partial",
   "theorems": [
    "NBK.Zel.log_subst",
    "NBK.Zel.dispersion_sq",
    "NBK.Zel.dispersion_real",
    "NBK.Zel.dispersion_shell",
    "NBK.Zel.dispersion_swapped",
    "NBK.Zel.dispersion_scale",
    "NBK.Zel.dispersion_split",
    "NBK.Zel.sph_poisson",
    "NBK.Zel.J0_doc",
    "NBK.Zel.J1_doc",
    "NBK.Zel.power_integral_doc",
    "NBK.Zel.setup_sigmasq",
    "NBK.Zel.setup_Y",
    "NBK.Zel.setup_X",
    "NBK.Zel.docX_nonneg",
    "NBK.Zel.setup_X_negative",
    "NBK.Zel.full_ratio",
    "NBK.Zel.orders_sum",
    "NBK.Zel.full_tendsto",
    "NBK.Zel.lowK_spec",
    "NBK.Zel.call_array",
    "NBK.Zel.call_empty",
    "NBK.Zel.call_scalar",
    "NBK.Zel.factor_gt_one"
   ],
   "note": "Proved for real numbers with exact integrals. Negation: sigma_v^2 is taken over wavenumbers up to 10 while the transforms reach 100 and more, so X is negative near zero separation and all powers above k = 5e-3 are too large by exp(k^2 delta), where delta is the missing part of sigma_v^2. The integral over directions is stated with the cosine of the angle, not as an integral over space."
  },
  {
   "property": "C131",
   "status": "partial",
   "theorems": [
    "NBK.RngObj.call_values",
    "NBK.RngObj.rank_raises_iff",
    "NBK.RngObj.run_agree",
    "NBK.RngObj.run_seeds",
    "NBK.RngObj.seeds_fresh",
    "NBK.RngObj.prepare_suits",
    "NBK.RngObj.prepare_one",
    "NBK.RngObj.prepare_bad",
    "NBK.RngObj.choice_chunk",
    "NBK.RngObj.choice_repeats",
    "NBK.RngObj.errors_not_collective",
    "NBK.RngObj.wrong_length_hangs",
    "NBK.RngObj.one_item_many",
    "NBK.RngObj.weighted_not_sequential",
    "NBK.RngObj.weighted_depends_on_ranks",
    "NBK.RngObj.NBK.RngObj.searchRight_spec",
    "NBK.RngObj.NBK.RngObj.firsts_spec",
    "NBK.RngObj.NBK.RngObj.weighted_spec",
    "NBK.RngObj.NBK.RngObj.weighted_case",
    "NBK.RngObj.NBK.RngObj.filter_down"
   ],
   "note": "proved for samplers that draw row after row: call_values, run_agree, rank_raises_iff. Negations: choice(replace=False) repeats elements between chunks (choice_repeats); with probabilities p the numbers depend on the ranks and repeat within a chunk (weighted_depends_on_ranks); errors are raised on some ranks only (errors_not_collective); an argument of the wrong length makes the other ranks wait for ever (wrong_length_hangs), and on a rank with one item it is accepted and gives more numbers than items (one_item_many)"
  },
  {
   "property": "C132",
   "status": "partial",
   "theorems": [
    "NBK.TaskStop.returns_iff",
    "NBK.TaskStop.halted_forever",
    "NBK.TaskStop.results_of_others",
    "NBK.TaskStop.stop_at_most_once",
    "NBK.TaskStop.stop_bound",
    "NBK.TaskStop.reaches_end",
    "NBK.TaskStop.quiescent",
    "NBK.TaskStop.few_stops",
    "NBK.TaskStop.iterator_waits",
    "NBK.TaskStop.case_stop"
   ],
   "note": "proved as stated for the groups; negations: once a group has stopped the root never leaves its loop (halted_forever), so that with `break` all other ranks wait for ever and with an exception they wait unless the MPI runtime ends the job; with an iterator the root raises and the groups wait for ever without a task (iterator_waits). One group is one process here; that its ranks act together without exceptions is C106"
  },
  {
   "property": "C133",
   "status": "partial",
   "theorems": [
    "NBK.ReconObj.new_ok_iff",
    "NBK.ReconObj.new_spec",
    "NBK.ReconObj.new_errors",
    "NBK.ReconObj.column_set",
    "NBK.ReconObj.column_set_size",
    "NBK.ReconObj.column_del",
    "NBK.ReconObj.renew",
    "NBK.ReconObj.set_is_new",
    "NBK.ReconObj.set_los_differs",
    "NBK.ReconObj.field_eq",
    "NBK.ReconObj.bias_zero",
    "NBK.ReconObj.scheme_unbound",
    "NBK.ReconObj.column_lost",
    "NBK.ReconObj.root_total",
    "NBK.ReconObj.compute_spec",
    "NBK.ReconObj.field_kept",
    "NBK.ReconObj.live",
    "NBK.ReconObj.view_set",
    "NBK.ReconObj.base_set",
    "NBK.ReconObj.case_program",
    "NBK.ReconObj.set_last"
   ],
   "note": "All parts are proved. Negations: a view reports its own attrs with a field made with those of the object behind (view_set, base_set); a direction set in attrs is not normalised (set_los_differs); a bias of zero is accepted and fails in the computation (bias_zero); an unknown scheme set later ends in UnboundLocalError after all fields are painted (scheme_unbound). Not modelled: meshes that pmesh refuses, warnings and logging, single precision."
  },
  {
   "property": "C134",
   "status": "partial",
   "theorems": [
    "NBK.ZhistObj.make_array",
    "NBK.ZhistObj.make_scott",
    "NBK.ZhistObj.make_list",
    "NBK.ZhistObj.make_int",
    "NBK.ZhistObj.results_kept",
    "NBK.ZhistObj.look_step",
    "NBK.ZhistObj.poke_seen",
    "NBK.ZhistObj.rerun_is_new",
    "NBK.ZhistObj.half_run",
    "NBK.ZhistObj.save_load",
    "NBK.ZhistObj.file_kept",
    "NBK.ZhistObj.pickle_spec",
    "NBK.ZhistObj.edges_inside",
    "NBK.ZhistObj.copy_shares",
    "NBK.ZhistObj.restored",
    "NBK.ZhistObj.restored_forever",
    "NBK.ZhistObj.wf_run",
    "NBK.ZhistObj.case_program"
   ],
   "note": "All parts are proved. Negations: a list of edges is a TypeError although documented (make_list), an integer never works (make_int), the array of edges given by the user is shared so that later changes are seen in bin_edges but not in the densities (poke_seen), a run that fails with a list leaves new bin_edges with old densities (half_run), loaded, copied and unpickled objects can never run and the latter two never be saved (restored_forever), copy.copy shares attrs (copy_shares). Lists of Python are values in the model."
  },
  {
   "property": "C135",
   "status": "partial",
   "theorems": [
    "NBK.FileCatObj.bound_nat",
    "NBK.FileCatObj.cut_eval",
    "NBK.FileCatObj.query_ok_iff",
    "NBK.FileCatObj.query_spec",
    "NBK.FileCatObj.query_size",
    "NBK.FileCatObj.query_ranks",
    "NBK.FileCatObj.view_refused",
    "NBK.FileCatObj.other_class",
    "NBK.FileCatObj.slice_forgotten",
    "NBK.FileCatObj.program_sized",
    "NBK.FileCatObj.program_query",
    "NBK.FileCatObj.inv_step",
    "NBK.FileCatObj.reads_rows",
    "NBK.FileCatObj.delete_refused",
    "NBK.FileCatObj.open_spec",
    "NBK.FileCatObj.open_ranks",
    "NBK.FileCatObj.open_missing",
    "NBK.FileCatObj.query_beyond",
    "NBK.FileCatObj.case_program",
    "NBK.FileCatObj.case_rank",
    "NBK.FileCatObj.case_tame",
    "NBK.FileCatObj.chain_wrong"
   ],
   "note": "Catalogs of files with query_range in programs with all operations of CatObj: rows, sizes and attributes of every query in every reachable state, and over all ranks. Negations: slices are forgotten, views are refused, chains of queries lose the first start, ranges beyond the file give catalogs that contradict themselves, a missing file leaves ranks waiting."
  },
  {
   "property": "C136",
   "status": "partial",
   "theorems": [
    "NBK.Pipe.compute_direct",
    "NBK.Pipe.call_ranks_partial",
    "NBK.Pipe.call_new",
    "NBK.Pipe.bins_given",
    "NBK.Pipe.estimator_eq",
    "NBK.Pipe.call_direct",
    "NBK.Pipe.auto_sign",
    "NBK.Pipe.single_particle",
    "NBK.Pipe.weights_scaled",
    "NBK.Pipe.doubled",
    "NBK.Pipe.call_shifted",
    "NBK.Pipe.power_swap",
    "NBK.Pipe.no_weight",
    "NBK.Pipe.case_ranks",
    "NBK.Pipe.case_values",
    "NBK.Pipe.ranks_fail",
    "NBK.Pipe.call_cross",
    "NBK.Pipe.call_swapped",
    "NBK.Pipe.corr_swapped",
    "NBK.Pipe.cross_values",
    "NBK.Pipe.corr_values"
   ],
   "note": "Partial: painting can fail on more ranks than twice the chunk size (ranks_fail), and for dk=0 the values of k must be far enough apart (BinsOk). A catalog of total weight that is not positive is replaced by a uniform field (no_weight). Exact arithmetic; the Fourier transform and the window are tables; filters other than the compensation and resampling are left out."
  },
  {
   "property": "C137",
   "status": "partial",
   "theorems": [
    "NBK.Survey.call_ranks_partial",
    "NBK.Survey.call_direct",
    "NBK.Survey.same_alpha",
    "NBK.Survey.call_meshes",
    "NBK.Survey.randoms_replicated",
    "NBK.Survey.monopole_moved",
    "NBK.Survey.weightless_randoms",
    "NBK.Survey.ranks_fail",
    "NBK.Survey.legendre_holds",
    "NBK.Survey.case_values",
    "NBK.Survey.case_ranks",
    "NBK.Survey.weightless_case",
    "NBK.Survey.weightless_both",
    "NBK.Survey.no_randoms_case",
    "NBK.Survey.copies_case",
    "NBK.Survey.replicated_case",
    "NBK.Survey.moved_case",
    "NBK.Survey.dipole_moved",
    "NBK.Survey.monopole_nonneg",
    "NBK.Survey.monopole_swapped",
    "NBK.Survey.box_of_rows",
    "NBK.Survey.painted_meta",
    "NBK.Survey.shot_rows",
    "NBK.Survey.offset_axis",
    "NBK.Survey.NBK.Survey.randoms_rescaled",
    "NBK.Survey.NBK.Survey.rescaled_case",
    "NBK.Survey.NBK.Survey.fkp_rescaled",
    "NBK.Survey.NBK.Survey.fkp_case",
    "NBK.Survey.NBK.Survey.nbar_rescaled",
    "NBK.Survey.NBK.Survey.nbar_case",
    "NBK.Survey.NBK.Survey.poles_apart",
    "NBK.Survey.NBK.Survey.poles_case",
    "NBK.Survey.NBK.Survey.kmax_cuts",
    "NBK.Survey.NBK.Survey.cut_case",
    "NBK.Survey.NBK.Survey.project_cut",
    "NBK.Survey.NBK.Survey.project_prefix",
    "NBK.Survey.NBK.Survey.wide_bins",
    "NBK.Survey.NBK.Survey.wide_case",
    "NBK.Survey.NBK.Survey.project_wide",
    "NBK.Survey.NBK.Survey.project_shell",
    "NBK.Survey.NBK.Survey.shell_weight"
   ],
   "note": "the ranks: partial, the box of a catalog must be found on both layouts and, for dk=0, the wavenumbers must not be too close; negation ranks_fail. Randoms with total weight 0 give NaN without an error (weightless_randoms)"
  },
  {
   "property": "C138",
   "status": "partial",
   "theorems": [
    "NBK.Capture.inv_step",
    "NBK.Capture.block",
    "NBK.Capture.block_ends",
    "NBK.Capture.call_ends_partial",
    "NBK.Capture.never_left",
    "NBK.Capture.can_hang",
    "NBK.Capture.call_never_ends",
    "NBK.Capture.setup_failed_partial",
    "NBK.Capture.setup_leaves_stdout",
    "NBK.Capture.unbound_out",
    "NBK.Capture.message_partial",
    "NBK.Capture.message_depends",
    "NBK.Capture.outside",
    "NBK.Capture.text_python",
    "NBK.Capture.result_kinds"
   ],
   "note": "the block and its end: proved for all executions (`block`, `block_ends`). A C function returns when its output fits into the pipes (`call_ends_partial`); otherwise the block may hang for ever (`can_hang`, `never_left`, `call_never_ends`). A block that cannot begin: partial, negation setup_leaves_stdout. The message: partial, for encodings that decode byte by byte; negation message_depends"
  },
  {
   "property": "C139",
   "status": "partial",
   "theorems": [
    "NBK.SaveObj.save_partial",
    "NBK.SaveObj.load_spec",
    "NBK.SaveObj.load_inconsistent",
    "NBK.SaveObj.loaded_rows",
    "NBK.SaveObj.round_trip_partial",
    "NBK.SaveObj.power_partial",
    "NBK.SaveObj.own_file",
    "NBK.SaveObj.load_then_save",
    "NBK.SaveObj.bad_attr",
    "NBK.SaveObj.refused",
    "NBK.SaveObj.save_path",
    "NBK.SaveObj.other_size",
    "NBK.SaveObj.other_header",
    "NBK.SaveObj.hidden",
    "NBK.SaveObj.shown_rows",
    "NBK.SaveObj.attrs_forgotten",
    "NBK.SaveObj.datasets_default",
    "NBK.SaveObj.later",
    "NBK.SaveObj.kept",
    "NBK.SaveObj.catalogs_kept",
    "NBK.SaveObj.chosen_spec",
    "NBK.SaveObj.default_rows",
    "NBK.SaveObj.rowwise_covers",
    "NBK.SaveObj.rankwise_covers",
    "NBK.SaveObj.NBK.SaveObj.no_file"
   ],
   "note": "The file is new, no saved column reads a block that save creates, and attributes can be stored; otherwise rows are lost (own_file, load_then_save, bad_attr), the file cannot be loaded (other_size, other_header) or columns vanish (hidden). The library bigfile is modelled by what it does; types of columns and several physical files per block are left out."
  },
  {
   "property": "C14",
   "status": "proved",
   "theorems": [
    "NBK.Options.with_restores",
    "NBK.Options.with_effect",
    "NBK.Options.unknown_rejected",
    "NBK.Options.cache_consistent",
    "NBK.Options.names_fixed"
   ],
   "note": ""
  },
  {
   "property": "C140",
   "status": "partial",
   "theorems": [
    "NBK.BoxTpcf.count_eq",
    "NBK.BoxTpcf.tpcf_ranks",
    "NBK.BoxTpcf.tpcf_moved",
    "NBK.BoxTpcf.tpcf_reflected",
    "NBK.BoxTpcf.tpcf_weights",
    "NBK.BoxTpcf.count_comm",
    "NBK.BoxTpcf.natural_swapped",
    "NBK.BoxTpcf.ls_swapped",
    "NBK.BoxTpcf.bin0_1d",
    "NBK.BoxTpcf.Cube.made",
    "NBK.BoxTpcf.auto_value",
    "NBK.BoxTpcf.auto_bound",
    "NBK.BoxTpcf.zero_weight_counts",
    "NBK.BoxTpcf.first_error",
    "NBK.BoxTpcf.not_cubic",
    "NBK.BoxTpcf.too_large",
    "NBK.BoxTpcf.grid_good",
    "NBK.BoxTpcf.wrap_least",
    "NBK.BoxTpcf.diff2_image",
    "NBK.BoxTpcf.runBox_zero",
    "NBK.BoxTpcf.checks_fine",
    "NBK.BoxTpcf.NBK.BoxTpcf.tpcf_images",
    "NBK.BoxTpcf.NBK.BoxTpcf.auto_unit",
    "NBK.BoxTpcf.NBK.BoxTpcf.boxes_differ",
    "NBK.BoxTpcf.NBK.BoxTpcf.keyword_box",
    "NBK.BoxTpcf.NBK.BoxTpcf.ls_zero_weight",
    "NBK.BoxTpcf.NBK.BoxTpcf.bin0_2d",
    "NBK.BoxTpcf.NBK.BoxTpcf.bin0_projected",
    "NBK.BoxTpcf.NBK.BoxTpcf.sep0_spec",
    "NBK.BoxTpcf.NBK.BoxTpcf.box_sides",
    "NBK.BoxTpcf.NBK.BoxTpcf.cross_value",
    "NBK.BoxTpcf.NBK.BoxTpcf.cross_bound",
    "NBK.BoxTpcf.NBK.BoxTpcf.cross_mixture",
    "NBK.BoxTpcf.NBK.BoxTpcf.auto_2d",
    "NBK.BoxTpcf.NBK.BoxTpcf.cross_2d",
    "NBK.BoxTpcf.NBK.BoxTpcf.auto_projected",
    "NBK.BoxTpcf.NBK.BoxTpcf.cross_projected",
    "NBK.BoxTpcf.NBK.BoxTpcf.auto_wp",
    "NBK.BoxTpcf.NBK.BoxTpcf.cross_wp",
    "NBK.BoxTpcf.NBK.BoxTpcf.along_lost",
    "NBK.BoxTpcf.NBK.BoxTpcf.InCube.made",
    "NBK.BoxTpcf.NBK.BoxTpcf.InCube.made_projected",
    "NBK.BoxTpcf.NBK.BoxTpcf.auto_mean_mu",
    "NBK.BoxTpcf.NBK.BoxTpcf.cross_mean_mu"
   ],
   "note": "Particles of weight zero do change the result without randoms (zero_weight_counts), and the value carries a factor (N-1)/N. In the mode 2d a pair exactly along the line of sight is in no bin (along_lost). The explicit values are given for 1d, 2d and projected with its wp; numbers are rational, with a given root."
  },
  {
   "property": "C141",
   "status": "partial",
   "theorems": [
    "NBK.SurvTpcf.count_eq",
    "NBK.SurvTpcf.tpcf_ranks",
    "NBK.SurvTpcf.tpcf_angles",
    "NBK.SurvTpcf.tpcf_rotated",
    "NBK.SurvTpcf.tpcf_turned",
    "NBK.SurvTpcf.angular_redshifts",
    "NBK.SurvTpcf.same_distances",
    "NBK.SurvTpcf.refused",
    "NBK.SurvTpcf.tpcf_weights",
    "NBK.SurvTpcf.ls_swapped",
    "NBK.SurvTpcf.zero_weight",
    "NBK.SurvTpcf.ls_value",
    "NBK.SurvTpcf.first_bin",
    "NBK.SurvTpcf.mu_bin",
    "NBK.SurvTpcf.bin_1d",
    "NBK.SurvTpcf.bin_2d",
    "NBK.SurvTpcf.bin_projected",
    "NBK.SurvTpcf.bin_angular",
    "NBK.SurvTpcf.ls_1d",
    "NBK.SurvTpcf.ls_angular",
    "NBK.SurvTpcf.los_same_direction",
    "NBK.SurvTpcf.line_of_sight_lost",
    "NBK.SurvTpcf.made",
    "NBK.SurvTpcf.dealt_good",
    "NBK.SurvTpcf.case_angular",
    "NBK.SurvTpcf.NBK.SurvTpcf.sep_spec",
    "NBK.SurvTpcf.NBK.SurvTpcf.mean_separation",
    "NBK.SurvTpcf.NBK.SurvTpcf.made_projected",
    "NBK.SurvTpcf.NBK.SurvTpcf.wp_value",
    "NBK.SurvTpcf.NBK.SurvTpcf.ls_projected",
    "NBK.SurvTpcf.NBK.SurvTpcf.ls_wp",
    "NBK.SurvTpcf.NBK.SurvTpcf.ls_2d"
   ],
   "note": "The claim that a bin of '1d' or '2d' holds all pairs with a separation between its edges is false: pairs along the line of sight (same direction, different distances) are in no bin (line_of_sight_lost). Angular edges beyond 180 degrees are excluded (hypothesis Half): there the smoothing length shrinks and pairs can be missed on several ranks (SurvPairs.smoothing_beyond). Distances are exact reals and mean separations are rounded by an arbitrary function; in the mode 'projected' nothing is made for pimax below 2 (made_projected)."
  },
  {
   "property": "C142",
   "status": "partial",
   "theorems": [
    "NBK.Recon.kernel_moved",
    "NBK.Recon.psi_moved",
    "NBK.Recon.recon_map",
    "NBK.Recon.run_moved",
    "NBK.Recon.run_units",
    "NBK.Recon.run_copies",
    "NBK.Recon.run_uniform",
    "NBK.Recon.los_flipped",
    "NBK.Recon.NBK.Recon.solve_between",
    "NBK.Recon.NBK.Recon.between_case"
   ],
   "note": "The line of sight is moved to its new axis but never reversed: reversing it changes the displacements (los_flipped), so that the field is not covariant under reflections together with their line of sight; lines of sight mixing reflected with other directions are excluded by the hypothesis of run_moved. Reflections need data without power in modes that are not mirrored onto one another (Sym.good, the Nyquist modes). Positions are exact rationals instead of f4."
  },
  {
   "property": "C143",
   "status": "partial",
   "theorems": [
    "NBK.MeshPower.call_mesh",
    "NBK.MeshPower.species_direct",
    "NBK.MeshPower.call_species_partial",
    "NBK.MeshPower.species_mixture",
    "NBK.MeshPower.call_sources_partial",
    "NBK.MeshPower.call_moved",
    "NBK.MeshPower.case_moved",
    "NBK.MeshPower.case_merged",
    "NBK.MeshPower.species_negative",
    "NBK.MeshPower.species_empty",
    "NBK.MeshPower.NBK.MeshPower.recon_coef",
    "NBK.MeshPower.NBK.MeshPower.recon_uniform"
   ],
   "note": "The claim for species is false if their weights add up to a negative number (species_negative) or if one species has no weight: the shot noise is then NaN (species_empty). Results that are NaN, filters other than the compensation, and meshes of different Nmesh are outside the model; shifts are whole numbers of cells."
  },
  {
   "property": "C144",
   "status": "partial",
   "theorems": [
    "NBK.TpcfObj.box_weights",
    "NBK.TpcfObj.box_zero",
    "NBK.TpcfObj.box_copies",
    "NBK.TpcfObj.periodic_shift",
    "NBK.TpcfObj.periodic_units",
    "NBK.TpcfObj.periodic_axes",
    "NBK.TpcfObj.periodic_mirror_partial",
    "NBK.TpcfObj.mirror_half",
    "NBK.TpcfObj.open_similar",
    "NBK.TpcfObj.sky_weights",
    "NBK.TpcfObj.sky_zero",
    "NBK.TpcfObj.sky_copies",
    "NBK.TpcfObj.sky_rotated",
    "NBK.TpcfObj.sky_units",
    "NBK.TpcfObj.box_bounded",
    "NBK.TpcfObj.sky_bounded",
    "NBK.TpcfObj.multipoles_scaled",
    "NBK.TpcfObj.triangles_bound",
    "NBK.TpcfObj.leg_le"
   ],
   "note": "Mirror images in a periodic box change the values if the largest edge is half the box: an object half a box away is always put on the positive side (mirror_half); proved below half the box. As in C118, more than nine objects per rank are needed."
  },
  {
   "property": "C145",
   "status": "proved",
   "theorems": [
    "NBK.FofObj.fof_same",
    "NBK.FofObj.fof_layout",
    "NBK.FofObj.fof_shift",
    "NBK.FofObj.fof_images",
    "NBK.FofObj.fof_mirror",
    "NBK.FofObj.fof_units",
    "NBK.FofObj.fof_nested",
    "NBK.FofObj.halos_same"
   ],
   "note": "Hypothesis as in C110: the domain decomposition brings each pair of friends to one rank and kdcount labels the particles of a rank correctly. Groups of one size may exchange their numbers, hence the order of halos of one mass is not claimed."
  },
  {
   "property": "C146",
   "status": "partial",
   "theorems": [
    "NBK.CgmObj.groups_same",
    "NBK.CgmObj.groups_layout",
    "NBK.CgmObj.groups_shift",
    "NBK.CgmObj.groups_wrapped",
    "NBK.CgmObj.groups_rotated",
    "NBK.CgmObj.groups_units",
    "NBK.CgmObj.origin_matters"
   ],
   "note": "Hypotheses as in C112: the decomposition sends the possible members of a cylinder to one rank (which the grid of the code does not always ensure), and the keys of the ranking are not negative floats. Negation: without a fixed line of sight a translation changes the cylinders."
  },
  {
   "property": "C147",
   "status": "partial",
   "theorems": [
    "NBK.Kd.Fits.value",
    "NBK.Kd.density_same",
    "NBK.Kd.density_isometry",
    "NBK.Kd.density_layout",
    "NBK.Kd.density_shift",
    "NBK.Kd.density_mirror",
    "NBK.Kd.density_axes",
    "NBK.Kd.density_units",
    "NBK.Kd.density_more",
    "NBK.Kd.density_infinite",
    "NBK.Kd.depends_on_unit"
   ],
   "note": "Missing: margins that do not cover the eighth neighbour, for which the claim is false (`depends_on_unit`, C85): the margin is given in units of the inverse of the mean separation. Densities are kept squared since the distances are."
  },
  {
   "property": "C148",
   "status": "partial",
   "theorems": [
    "NBK.FiberObj.fibers_same",
    "NBK.FiberObj.fibers_directions",
    "NBK.FiberObj.fibers_rotated_partial",
    "NBK.FiberObj.fibers_nested",
    "NBK.FiberObj.rotation_matters",
    "NBK.FiberObj.NBK.FiberObj.inside"
   ],
   "note": "Missing: rotations for radii of 0.2 radians and more, for which the claim is false (`rotation_matters`): FOF is run with periodic boundaries in a box of side 2.2 around the unit sphere. Which objects of a group get fibers is left to chance and is not claimed to be the same."
  },
  {
   "property": "C149",
   "status": "proved",
   "theorems": [
    "NBK.ZhistObj.Call.Fits.nbar",
    "NBK.ZhistObj.nbar_layout",
    "NBK.ZhistObj.nbar_weights",
    "NBK.ZhistObj.nbar_both",
    "NBK.ZhistObj.nbar_fsky",
    "NBK.ZhistObj.nbar_units",
    "NBK.ZhistObj.nbar_merged",
    "NBK.ZhistObj.nbar_nonneg"
   ],
   "note": "Bins of volume 0 are NaN or infinite (`none`)."
  },
  {
   "property": "C15",
   "status": "partial",
   "theorems": [
    "NBK.Options.enter_restores_partial",
    "NBK.Options.enter_current",
    "NBK.Options.enter_error_not_restored",
    "NBK.Options.enter_wrong_comm"
   ],
   "note": "CurrentMPIComm.enter has no try/finally: a block left by an exception never restores the communicator (proved for all bodies); restoration holds for normal exits when no exception passing through an inner block was caught."
  },
  {
   "property": "C150",
   "status": "proved",
   "theorems": [
    "NBK.Zhist.Scott.scott_none",
    "NBK.Zhist.Scott.scott_layout",
    "NBK.Zhist.Scott.scott_moved",
    "NBK.Zhist.Scott.width_bounds",
    "NBK.Zhist.Scott.scott_nbins",
    "NBK.Zhist.Scott.range_not_multiple",
    "NBK.Zhist.Scott.scott_counts_all",
    "NBK.Zhist.Scott.scott_equal"
   ],
   "note": "Real arithmetic; rounding of the width and of the edges is left out."
  },
  {
   "property": "C16",
   "status": "proved",
   "theorems": [
    "NBK.Catalog.read_after_history",
    "NBK.Catalog.set_outcome",
    "NBK.Catalog.del_outcome"
   ],
   "note": "An assigned column that shadows a hard-coded one cannot be deleted either (the code tests hardcolumns first); del_outcome states this."
  },
  {
   "property": "C17",
   "status": "partial",
   "theorems": [
    "NBK.Catalog.copy_independent",
    "NBK.Catalog.copy_fails_without_attrs",
    "NBK.Catalog.slice_independent_partial",
    "NBK.Catalog.slice_columns_independent_partial",
    "NBK.Catalog.slice_attrs_shared",
    "NBK.Catalog.view_writes_through",
    "NBK.Catalog.select_independent"
   ],
   "note": "copy() and column selections are independent; slices share the attrs dictionary once it exists and views write through (both proved); copy() raises AttributeError if attrs was never touched."
  },
  {
   "property": "C18",
   "status": "proved",
   "theorems": [
    "NBK.PySlice.slice_forward",
    "NBK.PySlice.slice_backward",
    "NBK.PySlice.slice_special",
    "NBK.PySlice.slice_cases",
    "NBK.Slicing.slice_rows",
    "NBK.Slicing.mask_rows",
    "NBK.Slicing.ints_rows",
    "NBK.Slicing.ints_out_of_range"
   ],
   "note": ""
  },
  {
   "property": "C19",
   "status": "partial",
   "theorems": [
    "NBK.Slicing.gslice_rows_partial",
    "NBK.Slicing.gslice_negative",
    "NBK.Slicing.gslice_negative_wrong"
   ],
   "note": "Holds for positive steps on any distribution; for negative steps the rows come in the opposite order (proved for all inputs)."
  },
  {
   "property": "C20",
   "status": "partial",
   "theorems": [
    "NBK.Sort.sort_lex_bits",
    "NBK.Sort.bitsKey_spec",
    "NBK.Sort.neg64_spec",
    "NBK.Sort.sort_ascending_partial",
    "NBK.Sort.sort_descending_partial",
    "NBK.Sort.sort_reverse_ignored",
    "NBK.Sort.sort_reverse_int_wrong",
    "NBK.Sort.sort_negative_floats_wrong",
    "NBK.Sort.sort_rejects",
    "NBK.Sort.contract_mergeSort"
   ],
   "note": "mpsort is assumed to be a stable sort of the global array. Ascending order holds for integers and non-negative floats, descending order only for non-negative floats; reverse is ignored for integers and negative floats are ordered by their bit pattern (both negations proved)."
  },
  {
   "property": "C21",
   "status": "proved",
   "theorems": [
    "NBK.FileCat.save_exactly_once",
    "NBK.FileCat.save_read",
    "NBK.FileCat.open_rows"
   ],
   "note": "Every order of the chunk writes; the bigfile format itself is not modelled. Range queries: see C29."
  },
  {
   "property": "C22",
   "status": "proved",
   "theorems": [
    "NBK.Concat.concat_rows",
    "NBK.Concat.concat_rejects",
    "NBK.Concat.concat_global"
   ],
   "note": ""
  },
  {
   "property": "C23",
   "status": "partial",
   "theorems": [
    "NBK.FileIO.mask_rows_partial",
    "NBK.FileIO.mask_all_false_raises",
    "NBK.FileIO.ints_rows_partial",
    "NBK.FileIO.empty_index_raises",
    "NBK.FileIO.negative_int32_wrong"
   ],
   "note": "Holds for non-empty selections (masks with a True; int64 lists with negative, repeated and unsorted entries). Empty selections raise, and negative entries of other integer dtypes are not wrapped: the negations are proved for all files."
  },
  {
   "property": "C24",
   "status": "proved",
   "theorems": [
    "NBK.FileIO.stack_reads",
    "NBK.FileIO.stack_slices",
    "NBK.FileIO.stack_is_reader",
    "NBK.FileIO.stack_empty_slice_raises"
   ],
   "note": "Within the stated range 0<=start<=stop<=total; outside it, stack_empty_slice_raises shows an error for stop in an earlier file than start."
  },
  {
   "property": "C25",
   "status": "partial",
   "theorems": [
    "NBK.FileIO.sliceSize_partial",
    "NBK.FileIO.sliceSize_negative",
    "NBK.FileIO.binary_slice_partial",
    "NBK.FileIO.binary_empty_slice_raises",
    "NBK.FileIO.binary_reverse_wrong"
   ],
   "note": "Right when the slice runs forward (or, for the size, is non-empty). Empty slices with start > stop raise, and reversing the last column of a binary file silently returns the last item in every row (proved for all files)."
  },
  {
   "property": "C26",
   "status": "proved",
   "theorems": [
    "NBK.FileIO.binary_roundtrip",
    "NBK.FileIO.binRead_column",
    "NBK.FileIO.getsize_rejects"
   ],
   "note": "Positive steps; negative steps are treated in C25."
  },
  {
   "property": "C27",
   "status": "proved",
   "theorems": [
    "NBK.Csv.blocks_flatten",
    "NBK.Csv.blocks_lines",
    "NBK.Csv.blocks_lineEnd"
   ],
   "note": "dask's read_block is modelled by its documented rule. That reading returns the right rows also needs right sizes, see C28."
  },
  {
   "property": "C28",
   "status": "partial",
   "theorems": [
    "NBK.Csv.csv_sizes_partial",
    "NBK.Csv.csv_read_partial",
    "NBK.Csv.csv_triple_newline_wrong",
    "NBK.Csv.csv_phantom_row",
    "NBK.Csv.csv_blank_at_block_start",
    "NBK.Csv.csv_nrows_wrong",
    "NBK.Csv.csv_nrows_open_end",
    "NBK.Csv.csv_skiprows_wrong"
   ],
   "note": "Sizes and reads are right under explicit conditions on the blocks; each excluded case has a witness with a wrong size."
  },
  {
   "property": "C29",
   "status": "partial",
   "theorems": [
    "NBK.FileCat.query_general",
    "NBK.FileCat.query_rows_partial",
    "NBK.FileCat.query_repeated_wrong",
    "NBK.FileCat.query_repeated_witness",
    "NBK.FileCat.query_drops_assigned"
   ],
   "note": "A first query is right; the second is relative to the first, contrary to the documentation ('relative to the physical file'), and a third is relative to the start of the second only (proved for all ranges)."
  },
  {
   "property": "C30",
   "status": "proved",
   "theorems": [
    "NBK.Gadget.gadget_reads",
    "NBK.Gadget.gadget_markers",
    "NBK.Gadget.gadget_precision_unchecked"
   ],
   "note": "For columns with 'auto' precision, or a given precision equal to that of the file; a given precision that differs from the file is not detected (gadget_precision_unchecked)."
  },
  {
   "property": "C31",
   "status": "proved",
   "theorems": [
    "NBK.Mesh.paint_eq",
    "NBK.Mesh.apply_new",
    "NBK.Mesh.paint_keeps"
   ],
   "note": "refinement over every program of new/apply/compute; resampling and attrs not modelled"
  },
  {
   "property": "C32",
   "status": "proved",
   "theorems": [
    "NBK.Paint.paint_exactly_once",
    "NBK.Paint.paint_ends",
    "NBK.Paint.paint_succeeds",
    "NBK.Paint.paint_independent",
    "NBK.Paint.paint_mean_one",
    "NBK.Paint.paint_zero_chunk_diverges"
   ],
   "note": "any decomposition; positive chunk size; chunk size 0 loops forever (theorem)"
  },
  {
   "property": "C33",
   "status": "proved",
   "theorems": [
    "NBK.Hermitian.hermitian_sum",
    "NBK.Hermitian.full_sum",
    "NBK.Hermitian.hermitian_count",
    "NBK.Project.poleTerm_conj"
   ],
   "note": "every mesh size, block decomposition and iteration axis; poleTerm_conj covers the conjugate in the multipoles"
  },
  {
   "property": "C34",
   "status": "partial",
   "theorems": [
    "NBK.Project.project_2d_partial",
    "NBK.Project.project_poles_partial",
    "NBK.Project.visible_eq",
    "NBK.Project.bin_unique",
    "NBK.Project.bin_exists",
    "NBK.Project.bin_squared",
    "NBK.Project.project_independent",
    "NBK.Project.mu_above_kept",
    "NBK.Project.fftcorr_drops_negative_mu"
   ],
   "note": "modes with mu above the last edge are kept in the last bin (negation mu_above_kept); FFTCorr drops negative mu"
  },
  {
   "property": "C35",
   "status": "partial",
   "theorems": [
    "NBK.Hermitian.proj_sum_partial",
    "NBK.Hermitian.proj_odd_wrong"
   ],
   "note": "false for every odd size from 3 on (proj_odd_wrong)"
  },
  {
   "property": "C36",
   "status": "proved",
   "theorems": [
    "NBK.Fof.fof_components",
    "NBK.Fof.fof_root",
    "NBK.Fof.fof_same_iff",
    "NBK.Fof.fof_independent"
   ],
   "note": "kdcount's labels on a rank are assumed to be the connected components of the friends on that rank, dense; pmesh's layout is the list of particles received by each rank. Termination, labels = smallest id of the component, for every decomposition in which every pair of friends shares a rank."
  },
  {
   "property": "C37",
   "status": "partial",
   "theorems": [
    "NBK.Fof.assignLabels_partial",
    "NBK.Fof.assignLabels_drops_nmin",
    "NBK.Fof.assignLabels_empty_rank"
   ],
   "note": "Right with 'more than nmin' in place of 'at least nmin': groups of exactly nmin members are dropped (assignLabels_drops_nmin), and label.max() raises when a rank has no particle (assignLabels_empty_rank)."
  },
  {
   "property": "C38",
   "status": "partial",
   "theorems": [
    "NBK.Fof.equivClass_order_partial",
    "NBK.Fof.equivClass_comm",
    "NBK.Fof.equivClass_stable",
    "NBK.Fof.equivClass_default",
    "NBK.Fof.equivClass_sparse",
    "NBK.Fof.equivClass_too_short",
    "NBK.Fof.equivClass_order_lost"
   ],
   "note": "Exactly the values with the label are reduced, for every operation; the original order is kept only if argsort is stable (numpy's default is not): equivClass_order_lost. For commutative associative operations (all uses in nbodykit) the result is the reduction in the original order."
  },
  {
   "property": "C39",
   "status": "proved",
   "theorems": [
    "NBK.Fof.replacesorted_spec"
   ],
   "note": "With repeated entries in `sorted` the first one is used."
  },
  {
   "property": "C40",
   "status": "proved",
   "theorems": [
    "NBK.Cgm.cgm_spec",
    "NBK.Cgm.cgm_centrals_apart",
    "NBK.Cgm.cgm_counts",
    "NBK.Cgm.cgm_independent",
    "NBK.Cgm.cgm_no_self_pair",
    "NBK.Cgm.cgm_empty_rank"
   ],
   "note": "For every relation in which an object is paired with itself, and every distribution where each rank holds the objects paired with its own (ghosts). Limits: an object at the observer's position has a NaN pair with itself and gets label -1 (cgm_no_self_pair); a rank without objects makes the run fail (cgm_empty_rank)."
  },
  {
   "property": "C41",
   "status": "proved",
   "theorems": [
    "NBK.Fiber.fibers_spec"
   ],
   "note": "Distances in any linear order; numpy.random.choice is an arbitrary choice among the candidates. The groups are those of the friends-of-friends step: at least two objects, and colliding objects share a group."
  },
  {
   "property": "C42",
   "status": "partial",
   "theorems": [
    "NBK.Fiber.multiplets_maximal_partial",
    "NBK.Fiber.multiplets_clique_partial",
    "NBK.Fiber.multiplets_not_maximal",
    "NBK.Fiber.star_sphere"
   ],
   "note": "False in general: multiplets_not_maximal has 13 points on the sphere where the first object removed could keep its fiber, for every random choice. What holds: an object is collided only if it collides with a clean object or one removed after it (multiplets_maximal_partial), and groups of mutually colliding objects lose all but one (multiplets_clique_partial)."
  },
  {
   "property": "C43",
   "status": "partial",
   "theorems": [
    "NBK.Binned.roundtrip_partial",
    "NBK.Binned.json_partial",
    "NBK.Binned.roundtrip_eq",
    "NBK.Binned.roundtrip_sums",
    "NBK.Binned.json_attr_error",
    "NBK.Binned.json_attr_consumed"
   ],
   "note": "False: the names of the variables to sum are not saved, so the number of modes is averaged when a loaded result is re-binned (roundtrip_sums). The round trip is the identity exactly if there are none and the mask is exact (roundtrip_partial). from_json also fails on metadata named like a parameter."
  },
  {
   "property": "C44",
   "status": "partial",
   "theorems": [
    "NBK.Binned.take_partial",
    "NBK.Binned.getitem_partial",
    "NBK.Binned.take_edges_iff",
    "NBK.Binned.take_edges_wrong",
    "NBK.Binned.getitem_negative",
    "NBK.Binned.getitem_reversed"
   ],
   "note": "Data, mask and lower edges are those of the selected bins. Upper edges are right exactly if the selected bins are consecutive (take_edges_iff); negative list indices and reversed slices give wrong edges (witnesses). Integers mixed with lists, and several lists, are not in the model."
  },
  {
   "property": "C45",
   "status": "partial",
   "theorems": [
    "NBK.Binned.reindex_partial",
    "NBK.Binned.allclose_range",
    "NBK.Binned.add_nan",
    "NBK.Binned.mul_sign",
    "NBK.Binned.isFinite_false",
    "NBK.Binned.key_kinds",
    "NBK.Binned.getIndex_spec",
    "NBK.Binned.reindex_total",
    "NBK.Binned.reindex_weights_nan",
    "NBK.Binned.reindex_truncates"
   ],
   "note": "Sums, totals and means of valid bins for every number of dimensions, factor and leftover. Missing: the weights of invalid bins are included in the denominator (reindex_weights_nan) and averaged integers are truncated (reindex_truncates)."
  },
  {
   "property": "C46",
   "status": "partial",
   "theorems": [
    "NBK.Binned.reindex_given_partial",
    "NBK.Binned.reindex_default_partial",
    "NBK.Binned.reindex_history",
    "NBK.Binned.reindex_argument"
   ],
   "note": "False: the default list is shared by all calls and grows (reindex_history), and the list of the caller is modified (reindex_argument)."
  },
  {
   "property": "C47",
   "status": "partial",
   "theorems": [
    "NBK.Binned.mask_sound_partial",
    "NBK.Binned.mask_exact_partial",
    "NBK.Binned.setitem_mask",
    "NBK.Binned.getVars_mask"
   ],
   "note": "Invalid bins are masked in every state that a program can reach; the mask is exact as long as variables are not overwritten or dropped, otherwise it may mark valid bins (witnesses)."
  },
  {
   "property": "C48",
   "status": "proved",
   "theorems": [
    "NBK.Pairs.pairCount_eq",
    "NBK.Pairs.pairCount_full",
    "NBK.Pairs.binOf_iff",
    "NBK.Pairs.bin2_spec",
    "NBK.Pairs.pairCount_indep",
    "NBK.Pairs.gridLayout_complete",
    "NBK.Pairs.smoothing_covers",
    "NBK.Pairs.box_pairCount",
    "NBK.Pairs.empty_nan"
   ],
   "note": "For every number of ranks, distribution, chunking and reduction tree; the compiled Corrfunc function and pmesh's decomposition are external (documented contract; a grid decomposition is proved to meet it). Corrfunc must report finite averages in empty bins (empty_nan)."
  },
  {
   "property": "C49",
   "status": "proved",
   "theorems": [
    "NBK.Pairs.total_auto",
    "NBK.Pairs.total_cross",
    "NBK.Pairs.total_indep",
    "NBK.Pairs.no_self_pairs",
    "NBK.Pairs.auto_sum",
    "NBK.Pairs.cross_sum",
    "NBK.Pairs.checkArgs_iff"
   ],
   "note": "Exact arithmetic. auto_sum and cross_sum relate the total to the counts of bins covering all pairs."
  },
  {
   "property": "C50",
   "status": "partial",
   "theorems": [
    "NBK.Zhist.hist_eq",
    "NBK.Zhist.hist_total",
    "NBK.Zhist.hist_indep",
    "NBK.Zhist.nbar_volume",
    "NBK.Zhist.volumes_get",
    "NBK.Zhist.last_edge_dropped",
    "NBK.Zhist.int_bins_fail",
    "NBK.Zhist.given_edges"
   ],
   "note": "Holds for a sequence of sorted edges; a number of bins, documented, always ends in an error because linspace is not defined (int_bins_fail)."
  },
  {
   "property": "C51",
   "status": "partial",
   "theorems": [
    "NBK.Json.roundtrip_eq",
    "NBK.Json.roundtrip_partial",
    "NBK.Json.empty_shape",
    "NBK.Json.tuple_list",
    "NBK.Json.complex_inf",
    "NBK.Json.reserved_complex",
    "NBK.Json.reserved_dtype",
    "NBK.Json.bytes_fail",
    "NBK.Json.padded_fail",
    "NBK.Json.nested_fail",
    "NBK.Json.kinds"
   ],
   "note": "Exact for nested values of every size; not read back: arrays with an empty dimension before the last, tuples, numpy scalars, complex numbers with an infinite imaginary part, dictionaries with reserved keys; bytes cannot be written, padded and nested structured dtypes cannot be read (witnesses). Structured dtypes with plain and subarray fields are included."
  },
  {
   "property": "C52",
   "status": "partial",
   "theorems": [
    "NBK.SpeciesMesh.field_eq",
    "NBK.SpeciesMesh.field_mean_one",
    "NBK.SpeciesMesh.field_union",
    "NBK.SpeciesMesh.field_succeeds",
    "NBK.SpeciesMesh.field_shotnoise_partial",
    "NBK.SpeciesMesh.shotnoise_nan",
    "NBK.SpeciesMesh.empty_mesh_nan"
   ],
   "note": "Any species, catalogs and distributions; the mesh is a list of deposits (pmesh's paint is external). Missing only for a total weight of zero: the normalized mesh is NaN (empty_mesh_nan). The total shot noise is NaN if one species has no weight (shotnoise_nan)."
  },
  {
   "property": "C53",
   "status": "proved",
   "theorems": [
    "NBK.Species.splitColumn_ok_iff",
    "NBK.Species.slash_names_rejected",
    "NBK.Species.species_read",
    "NBK.Species.species_reject",
    "NBK.Species.multi_spec"
   ],
   "note": "Array-valued assignments of the species' size; a scalar assigned through the multi-species catalog bypasses the broadcast (species.py 147) and is not modelled."
  },
  {
   "property": "C54",
   "status": "proved",
   "theorems": [
    "NBK.Fof.count_spec",
    "NBK.Fof.count_empty_rank",
    "NBK.Fof.centerOfMass_mean",
    "NBK.Fof.centerOfMass_periodic"
   ],
   "note": "Rational coordinates, one axis at a time; every rank holds a particle (otherwise count raises: count_empty_rank)."
  },
  {
   "property": "C55",
   "status": "proved",
   "theorems": [
    "NBK.Fof.peakLabels_spec"
   ],
   "note": "Every rank holds a particle."
  },
  {
   "property": "C56",
   "status": "partial",
   "theorems": [
    "NBK.Binned.reindex_edges_partial",
    "NBK.Binned.reindex_uneven"
   ],
   "note": "Right for bins of equal width; bins of different widths are not rejected, because the check compares the widths with themselves, and get wrong edges (reindex_uneven)."
  },
  {
   "property": "C57",
   "status": "partial",
   "theorems": [
    "NBK.Binned.average_partial",
    "NBK.Binned.even_factor",
    "NBK.Binned.average_uneven",
    "NBK.Binned.average_single",
    "NBK.Binned.average_1d"
   ],
   "note": "Right for bins of equal width in two or more dimensions; for other bins some are dropped without notice (average_uneven); a dimension with a single bin and a single dimension raise."
  },
  {
   "property": "C58",
   "status": "partial",
   "theorems": [
    "NBK.Binned.take_coords_partial",
    "NBK.Binned.getVars_eq",
    "NBK.Binned.getVars_coords"
   ],
   "note": "Coordinates are replaced by bin centers on every selection: right only for coordinates at the centers and consecutive bins."
  },
  {
   "property": "C59",
   "status": "partial",
   "theorems": [
    "NBK.Estim.ls_formula",
    "NBK.Estim.ls_nan",
    "NBK.Estim.ls_indep",
    "NBK.Estim.ls_scale",
    "NBK.Estim.ls_counts_partial",
    "NBK.Estim.ls_wrong_randoms",
    "NBK.Estim.ls_given"
   ],
   "note": "The formula holds for the counts used; with data2=None and two different randoms the third count is data1 x randoms2 again instead of data1 x randoms1 (ls_wrong_randoms)."
  },
  {
   "property": "C60",
   "status": "partial",
   "theorems": [
    "NBK.Estim.natural_cross",
    "NBK.Estim.natural_auto_partial",
    "NBK.Estim.natural_bias"
   ],
   "note": "Holds for cross-correlations; the auto-correlation is off by -1/N since the random pairs are N**2 f instead of N(N-1) f."
  },
  {
   "property": "C61",
   "status": "partial",
   "theorems": [
    "NBK.Estim.ff1d_shell",
    "NBK.Estim.ff2d_sum",
    "NBK.Estim.ffProj_sum",
    "NBK.Estim.capArea_wrong"
   ],
   "note": "Holds for '1d', '2d' and 'projected'; the area of the angular cap is too large for every angle (capArea_wrong)."
  },
  {
   "property": "C62",
   "status": "partial",
   "theorems": [
    "NBK.Estim.wp_eq",
    "NBK.Estim.wp_const",
    "NBK.Estim.monopole_eq",
    "NBK.Estim.wp_single_bin",
    "NBK.Estim.piEdges_spec"
   ],
   "note": "The values hold; for 1 <= pimax < 2 (accepted) the result object cannot be built (wp_single_bin)."
  },
  {
   "property": "C63",
   "status": "partial",
   "theorems": [
    "NBK.Zhist.scott_edges",
    "NBK.Zhist.scott_counts_all_partial",
    "NBK.Zhist.scott_max_dropped",
    "NBK.Zhist.scott_equal_dropped",
    "NBK.Zhist.scott_empty_rank",
    "NBK.Zhist.Scott.scott_counts_all",
    "NBK.Zhist.Scott.scott_equal"
   ],
   "note": "With the width as a parameter the claim holds unless an object is exactly on the last edge; catalogs of equal redshifts are dropped entirely (scott_equal_dropped) and a process without objects raises (scott_empty_rank). With the exact width of Scott's rule no rational redshift is on the last edge (Scott.scott_counts_all)."
  },
  {
   "property": "C64",
   "status": "partial",
   "theorems": [
    "NBK.Cosmo.given_wins_partial",
    "NBK.Cosmo.conflict_raises",
    "NBK.Cosmo.default_kept",
    "NBK.Cosmo.class_names",
    "NBK.Cosmo.lambda_set",
    "NBK.Cosmo.neutrinos",
    "NBK.Cosmo.nonlinear_set",
    "NBK.Cosmo.default_cosmology",
    "NBK.Cosmo.both_names_ignored",
    "NBK.Cosmo.defaults_conflict",
    "NBK.Cosmo.truthy_false",
    "NBK.Cosmo.positive_spec"
   ],
   "note": "All parameters and combinations. Missing: T_cmb/T0_cmb, Omega_k/Omega0_k and the spellings of the cosmological constant are not in the conflict table, one is silently ignored (both_names_ignored); the defaults stay beside a conflicting name such as omega_b (defaults_conflict)."
  },
  {
   "property": "C65",
   "status": "partial",
   "theorems": [
    "NBK.Cosmo.clone_keeps",
    "NBK.Cosmo.clone_id",
    "NBK.Cosmo.clone_sets_partial",
    "NBK.Cosmo.clone_ignores",
    "NBK.Cosmo.clone_output",
    "NBK.Cosmo.clone_neutrinos"
   ],
   "note": "Untouched parameters are kept exactly for every clone. Given parameters are set except T0_cmb, Omega0_k and Omega0_lambda, which are ignored when the cosmology has a value already (clone_ignores); N_ur is not re-inferred and Omega0_ur raises KeyError (clone_neutrinos)."
  },
  {
   "property": "C66",
   "status": "proved",
   "theorems": [
    "NBK.Cosmo.match_sigma8",
    "NBK.Cosmo.match_cb",
    "NBK.Cosmo.match_m",
    "NBK.Cosmo.match_one",
    "NBK.Cosmo.match_example",
    "NBK.Cosmo.example_lawful",
    "NBK.Cosmo.match_case"
   ],
   "note": "CLASS is external: its densities are the given ones, other densities are independent of these, and sigma8^2 is proportional to A_s."
  },
  {
   "property": "C67",
   "status": "partial",
   "theorems": [
    "NBK.Cosmo.astropy_roundtrip_partial",
    "NBK.Cosmo.astropy_ok",
    "NBK.Cosmo.astropy_w0",
    "NBK.Cosmo.astropy_masses"
   ],
   "note": "Holds unless w0 = -1 with wa != 0, where to_astropy sets w0 = wa (astropy_w0); more masses than floor(Neff) raise (astropy_masses). Curvature is what astropy derives."
  },
  {
   "property": "C68",
   "status": "proved",
   "theorems": [
    "NBK.Fkp.weight_spec",
    "NBK.Fkp.weight_anti",
    "NBK.Fkp.weight_units",
    "NBK.Fkp.init_ok_iff",
    "NBK.Fkp.init_rows",
    "NBK.Fkp.init_none"
   ],
   "note": "Every catalog and distribution; exact arithmetic."
  },
  {
   "property": "C69",
   "status": "partial",
   "theorems": [
    "NBK.Fkp.box_contains_partial",
    "NBK.Fkp.box_indep",
    "NBK.Fkp.box_empty",
    "NBK.Fkp.box_given",
    "NBK.Fkp.box_species",
    "NBK.Fkp.data_outside",
    "NBK.Fkp.box_zero",
    "NBK.Fkp.box_unselected"
   ],
   "note": "The species that defines the box lies in it. Missing: the other species may lie outside (data_outside), a common coordinate gives a box of size 0 (box_zero), and randoms of which none is selected raise instead of giving the box of the data (box_unselected)."
  },
  {
   "property": "C70",
   "status": "partial",
   "theorems": [
    "NBK.Fkp.alpha_spec",
    "NBK.Fkp.paint_total",
    "NBK.Fkp.field_some",
    "NBK.Fkp.field_sum",
    "NBK.Fkp.field_total",
    "NBK.Fkp.field_mean_zero",
    "NBK.Fkp.field_indep",
    "NBK.Fkp.field_scale",
    "NBK.Fkp.alpha_units",
    "NBK.Fkp.field_units",
    "NBK.Fkp.field_replicate",
    "NBK.Fkp.field_no_randoms",
    "NBK.Fkp.field_unselected"
   ],
   "note": "For every window whose shares add up to 1. Missing: randoms without a selected object make the whole field NaN (field_unselected)."
  },
  {
   "property": "C71",
   "status": "partial",
   "theorems": [
    "NBK.Fkp.attrs_ok",
    "NBK.Fkp.attrs_raise",
    "NBK.Fkp.attrs_indep",
    "NBK.Fkp.attrs_replicate",
    "NBK.Fkp.attrs_units",
    "NBK.Fkp.spectrum_units",
    "NBK.Fkp.check_units",
    "NBK.Fkp.normalization_again",
    "NBK.Fkp.shotnoise_no_randoms",
    "NBK.Fkp.shotnoise_twice",
    "NBK.Fkp.norm_check_small"
   ],
   "note": "Holds when there are randoms. Without, which is documented, the shot noise is not finite (shotnoise_no_randoms); calling shotnoise again raises UnboundLocalError (shotnoise_twice); norms below 1e-8 escape the 5% check (norm_check_small), so that it depends on the units (check_units)."
  },
  {
   "property": "C72",
   "status": "partial",
   "theorems": [
    "NBK.Fkp.cross_valid",
    "NBK.Fkp.joint_size_partial",
    "NBK.Fkp.joint_center",
    "NBK.Fkp.joint_contains_partial",
    "NBK.Fkp.joint_misses",
    "NBK.Fkp.joint_same_size",
    "NBK.Fkp.joint_stale"
   ],
   "note": "The check of the columns is exact. The joint box contains both boxes only if their centers agree (joint_misses); boxes of the same size keep different centers (joint_same_size); the ParticleMesh keeps the old box (joint_stale)."
  },
  {
   "property": "C73",
   "status": "partial",
   "theorems": [
    "NBK.Convpower.multipoles_eq",
    "NBK.Convpower.multipole_alone",
    "NBK.Convpower.auto_eq_cross",
    "NBK.Convpower.yamamoto",
    "NBK.Convpower.no_poles",
    "NBK.Convpower.double_pole",
    "NBK.Ylm.yamamoto_legendre"
   ],
   "note": "Transform, projection on bins and spherical harmonics are parameters; for the harmonics of the code see yamamoto_legendre. Missing: an empty list of multipoles passes the checks and raises UnboundLocalError (no_poles)."
  },
  {
   "property": "C74",
   "status": "proved",
   "theorems": [
    "NBK.Pkmu.legendre_spec",
    "NBK.Pkmu.pkmu_ok_iff",
    "NBK.Pkmu.pkmu_congr",
    "NBK.Pkmu.pkmu_average",
    "NBK.Pkmu.pkmu_bin",
    "NBK.Pkmu.pkmu_telescope",
    "NBK.Pkmu.pkmu_monopole",
    "NBK.Pkmu.pkmu_edges"
   ],
   "note": "Exact arithmetic; quad is the exact integral. Wedges have a width other than zero."
  },
  {
   "property": "C75",
   "status": "partial",
   "theorems": [
    "NBK.Recon.run_eq",
    "NBK.Recon.run_indep",
    "NBK.Recon.run_mean_zero",
    "NBK.Recon.run_empty"
   ],
   "note": "Resampler, transforms and exponential are parameters. Missing: with an empty catalog the field is NaN everywhere, without an error (run_empty)."
  },
  {
   "property": "C76",
   "status": "partial",
   "theorems": [
    "NBK.Recon.kernel_linear",
    "NBK.Recon.displacement_partial",
    "NBK.Recon.rsd_iff",
    "NBK.Recon.los_flipped",
    "NBK.Recon.los_scaled",
    "NBK.Recon.los_length",
    "NBK.Recon.los_zero"
   ],
   "note": "Holds exactly for the three positive unit axes (rsd_iff); other directions, the opposite direction (los_flipped) and vectors of other length (los_scaled, divided by the square of the length) go wrong."
  },
  {
   "property": "C77",
   "status": "proved",
   "theorems": [
    "NBK.Mock.gauss_delta",
    "NBK.Mock.gauss_power",
    "NBK.Mock.gauss_inverted",
    "NBK.Mock.gauss_divergence",
    "NBK.Mock.cells_all"
   ],
   "note": "Mode by mode over rationals; the white noise of pmesh and the root of the power are parameters."
  },
  {
   "property": "C78",
   "status": "partial",
   "theorems": [
    "NBK.Mock.sample_spec",
    "NBK.Mock.sample_indep",
    "NBK.Mock.objects_count",
    "NBK.Mock.mean_total",
    "NBK.Mock.place_box",
    "NBK.Mock.place_cell_partial",
    "NBK.Mock.place_wrong"
   ],
   "note": "Serial generators and mpsort are parameters with a contract; two sorts may treat equal keys differently. The place within the cell is right for cubic cells only (place_wrong: the side of the last axis is used for all)."
  },
  {
   "property": "C79",
   "status": "partial",
   "theorems": [
    "NBK.Seeds.resolve_spec",
    "NBK.Seeds.resolve_again",
    "NBK.Seeds.resolve2_spec",
    "NBK.Seeds.resolve2_again",
    "NBK.Seeds.random_parts",
    "NBK.Seeds.parts_cover",
    "NBK.Seeds.uniform_given_partial",
    "NBK.Seeds.uniform_none_sizes",
    "NBK.Seeds.uniform_none_seed",
    "NBK.Seeds.uniform_none_raise",
    "NBK.Seeds.random_zero"
   ],
   "note": "Holds for RandomCatalog, LogNormalCatalog and LinearMesh. UniformCatalog without a seed draws its size with another generator on every rank (uniform_none_sizes, uniform_none_seed, uniform_none_raise)."
  },
  {
   "property": "C80",
   "status": "partial",
   "theorems": [
    "NBK.Tpcf.tpcf_partial",
    "NBK.Tpcf.layout_partial",
    "NBK.Tpcf.geometry",
    "NBK.Tpcf.triangles_symm",
    "NBK.Tpcf.dig_iff",
    "NBK.Tpcf.wrapAxis_spec",
    "NBK.Tpcf.wrapAxis_nearest",
    "NBK.Tpcf.dipole_addition",
    "NBK.Tpcf.few_primaries",
    "NBK.Tpcf.bad_poles",
    "NBK.Ylm.tpcf_legendre"
   ],
   "note": "Holds if the fullest rank has at least ten primaries (or none): with fewer the progress message divides by zero (few_primaries). The completeness of the KD tree enumeration is a hypothesis; the addition theorem is one in tpcf_partial and proved in tpcf_legendre."
  },
  {
   "property": "C81",
   "status": "partial",
   "theorems": [
    "NBK.Power.linear_history_partial",
    "NBK.Power.linear_sigma8",
    "NBK.Power.sigma8_zero",
    "NBK.Power.zeldovich_history_partial",
    "NBK.Power.zeldovich_stale"
   ],
   "note": "Holds if sigma8 is never set to 0: after that no other value can be assigned (sigma8_zero). The variance is a parameter that is homogeneous. Assignments to the attribute Plin of ZeldovichPower are outside (zeldovich_stale)."
  },
  {
   "property": "C82",
   "status": "partial",
   "theorems": [
    "NBK.Power.class_power",
    "NBK.Power.class_unit",
    "NBK.Power.class_zero",
    "NBK.Power.class_beyond",
    "NBK.Power.eh_array",
    "NBK.Power.halofit_spec",
    "NBK.Power.class_integers",
    "NBK.Power.eh_integers",
    "NBK.Power.eh_zero",
    "NBK.Power.fn_zero",
    "NBK.Power.halofit_integers"
   ],
   "note": "Holds for floats. For integers the power of CLASS and Halofit is truncated before it is normalised (class_integers, halofit_integers), and for the number 0 the fitting formulas leave out the growth factor (eh_zero)."
  },
  {
   "property": "C83",
   "status": "partial",
   "theorems": [
    "NBK.Growth.growth_exact_partial",
    "NBK.Growth.growth_normalized",
    "NBK.Growth.growth_clamped",
    "NBK.Growth.default_grid_off",
    "NBK.Growth.grid_spec",
    "NBK.Growth.interp_node",
    "NBK.Growth.interp_segment",
    "NBK.Growth.matter_prime",
    "NBK.Growth.matter_closure",
    "NBK.Growth.factors_derivative",
    "NBK.Growth.matter_only_solution",
    "NBK.Growth.matter_only_growth",
    "NBK.Growth.ode_scale",
    "NBK.Growth.ode_affine",
    "NBK.Growth.radiation_consistent",
    "NBK.Growth.radiation_linear",
    "NBK.Growth.fluids_growth",
    "NBK.Growth.fluids_pressure"
   ],
   "note": "With a=None the functions are normalised at the nearest point of the default grid instead of a_normalize (default_grid_off), and past the last step they are constant (growth_clamped). The solver is a parameter."
  },
  {
   "property": "C84",
   "status": "partial",
   "theorems": [
    "NBK.Populate.populate_spec",
    "NBK.Populate.repopulate_history_partial",
    "NBK.Populate.invalid_iff",
    "NBK.Populate.invalid_unchanged",
    "NBK.Populate.update_spec",
    "NBK.Populate.types_agree_partial",
    "NBK.Populate.fsat_partial",
    "NBK.Populate.two_types",
    "NBK.Populate.types_mixed",
    "NBK.Populate.second_catalog",
    "NBK.Populate.second_catalog_ignored",
    "NBK.Populate.no_seed_differs",
    "NBK.Populate.empty_leaves"
   ],
   "note": "False for a model instance already used with another halo catalog, for seed=None on several ranks, for galaxy types not in sorted order; a repopulation without galaxies leaves a broken catalog. Witnesses are proved."
  },
  {
   "property": "C85",
   "status": "partial",
   "theorems": [
    "NBK.Kd.exact_partial",
    "NBK.Kd.density_partial",
    "NBK.Kd.never_above",
    "NBK.Kd.one_domain",
    "NBK.Kd.few",
    "NBK.Kd.meansep_inverse",
    "NBK.Kd.depends_on_unit",
    "NBK.Kd.kth_spec",
    "NBK.Kd.gathered_spec"
   ],
   "note": "Exact when the distance is within the margin, or on one rank. attrs[meansep] is the inverse of the mean separation (meansep_inverse), so with the default margin the result depends on the unit of length and on the number of ranks (depends_on_unit)."
  },
  {
   "property": "C86",
   "status": "proved",
   "theorems": [
    "NBK.SubVol.subVolumes_rows",
    "NBK.SubVol.column_spec",
    "NBK.SubVol.column_dropped",
    "NBK.SubVol.weight_lost"
   ],
   "note": "A Weight or Selection of the source that is not in columns becomes the default, silently (weight_lost)."
  },
  {
   "property": "C87",
   "status": "partial",
   "theorems": [
    "NBK.Comp.interlaced_restores",
    "NBK.Comp.shotnoise_white",
    "NBK.Comp.cic_transform",
    "NBK.Comp.tsc_transform",
    "NBK.Comp.pcs_transform",
    "NBK.Comp.cic_shotnoise",
    "NBK.Comp.tsc_shotnoise",
    "NBK.Comp.pcs_shotnoise",
    "NBK.Comp.amp_periodic",
    "NBK.Comp.window_even",
    "NBK.Comp.shotnoise_pos",
    "NBK.Comp.transform_pos",
    "NBK.Comp.transform_zero",
    "NBK.Comp.compensation_iff",
    "NBK.Comp.actions_spec",
    "NBK.Comp.capitals_raise"
   ],
   "note": "All kernels are proved exact. Disproved: a name in capitals accepted by to_mesh raises when painted with compensation, though the setter accepts it; two dimensions raise IndexError (capitals_raise)."
  },
  {
   "property": "C88",
   "status": "partial",
   "theorems": [
    "NBK.Uedges.centers_partial",
    "NBK.Uedges.ranks_partial",
    "NBK.Uedges.edges_spec",
    "NBK.Uedges.few",
    "NBK.Uedges.one_value_partial",
    "NBK.Uedges.cube_separated",
    "NBK.Uedges.cube_ranks",
    "NBK.Uedges.uniqueLocal_spec",
    "NBK.Uedges.bins_disjoint",
    "NBK.Uedges.beyond_counted",
    "NBK.Uedges.depends_on_ranks"
   ],
   "note": "Proved for values that are equal or separated (cubes up to 1e9 k0^2). Disproved: modes at or beyond kmax are counted in the last bin (beyond_counted, default limits of a mesh of 6 cells), and the bins depend on the number of ranks for boxes that are nearly cubes (depends_on_ranks)."
  },
  {
   "property": "C89",
   "status": "partial",
   "theorems": [
    "NBK.Corr.power3d_eq",
    "NBK.Corr.mul_fold",
    "NBK.Corr.clear_fold",
    "NBK.Corr.sum_modes",
    "NBK.Corr.corr_eq",
    "NBK.Corr.auto_corr",
    "NBK.Corr.corr_invariant",
    "NBK.Corr.run_partial",
    "NBK.Corr.half_counted",
    "NBK.Corr.cross_lost",
    "NBK.Corr.attrs_spec"
   ],
   "note": "The 3D correlation is proved. Disproved: the bins of mu are from 0 to 1, so separations with mu<0 are dropped and those with mu=0 count twice as much: the 1d result is not the mean of the bin and depends on the line of sight (half_counted), and cross correlations lose half of the separations (cross_lost)."
  },
  {
   "property": "C90",
   "status": "partial",
   "theorems": [
    "NBK.ProjPower.coeff_eq",
    "NBK.ProjPower.coeff_neg",
    "NBK.ProjPower.pk_neg",
    "NBK.ProjPower.kmag_neg",
    "NBK.ProjPower.kmag_spec",
    "NBK.ProjPower.digitize_iff",
    "NBK.ProjPower.binSum_partial",
    "NBK.ProjPower.result_partial",
    "NBK.ProjPower.imag_cancels",
    "NBK.ProjPower.odd_modes",
    "NBK.ProjPower.imag_kept",
    "NBK.ProjPower.kedges_spec",
    "NBK.ProjPower.edges_nyquist",
    "NBK.ProjPower.run_rows",
    "NBK.ProjPower.only_projection",
    "NBK.ProjPower.translated",
    "NBK.ProjPower.constant_added",
    "NBK.ProjPower.scaled",
    "NBK.ProjPower.exchanged",
    "NBK.ProjPower.mirror",
    "NBK.ProjPower.auto_nonneg",
    "NBK.ProjPower.units",
    "NBK.ProjPower.NBK.ProjPower.wide_bins",
    "NBK.ProjPower.NBK.ProjPower.wide_case"
   ],
   "note": "Proved for an even number of cells along the last kept axis and the real part. Disproved for odd numbers (odd_modes) and for the imaginary part, which is not cancelled by the opposite modes (imag_kept)."
  },
  {
   "property": "C91",
   "status": "partial",
   "theorems": [
    "NBK.Attrs.catalog_partial",
    "NBK.Attrs.flat_exact",
    "NBK.Attrs.catalog_error",
    "NBK.Attrs.headers_mem",
    "NBK.Attrs.last_header",
    "NBK.Attrs.mesh_partial",
    "NBK.Attrs.mesh_dims",
    "NBK.Attrs.number_array",
    "NBK.Attrs.nmesh_one",
    "NBK.Attrs.matrix_flat",
    "NBK.Attrs.tagged_text",
    "NBK.Attrs.stale",
    "NBK.Attrs.mesh_one",
    "NBK.Attrs.mesh_one_item"
   ],
   "note": "All attributes come back, flattened; shapes of numbers and matrices are lost, texts starting with json:// are not read as texts, and attributes of a catalog saved before to the same file stay."
  },
  {
   "property": "C92",
   "status": "partial",
   "theorems": [
    "NBK.MeshFile.file_spec",
    "NBK.MeshFile.file_ranks",
    "NBK.MeshFile.roundtrip",
    "NBK.MeshFile.size_checked",
    "NBK.MeshFile.dtype_kept",
    "NBK.MeshFile.array_values",
    "NBK.MeshFile.complex_shape_partial",
    "NBK.MeshFile.odd_cells",
    "NBK.MeshFile.array_dims"
   ],
   "note": "Saving and loading is proved; ArrayMesh of a complex array loses a cell along the last axis for odd sizes."
  },
  {
   "property": "C93",
   "status": "partial",
   "theorems": [
    "NBK.Sky.ranges",
    "NBK.Sky.unit_norm",
    "NBK.Sky.radians",
    "NBK.Sky.sky_inverse",
    "NBK.Sky.position_inverse",
    "NBK.Sky.redshift_between",
    "NBK.Sky.redshift_found",
    "NBK.Sky.redshift_beyond",
    "NBK.Sky.sky_partial",
    "NBK.Sky.between_grid",
    "NBK.Sky.velocity_shift",
    "NBK.Sky.pole",
    "NBK.Sky.example_grid"
   ],
   "note": "Angles are exact; the redshift is exact only at grid points and otherwise lies in the same grid cell; RA is lost at the poles. Frames other than icrs (astropy) and float rounding are not modelled."
  },
  {
   "property": "C94",
   "status": "partial",
   "theorems": [
    "NBK.Columns.stack_spec",
    "NBK.Columns.stack_error",
    "NBK.Columns.example_stack",
    "NBK.Columns.projection_spec",
    "NBK.Columns.projection_fixed",
    "NBK.Columns.shape_rows",
    "NBK.Columns.shape_single",
    "NBK.Columns.shape_more"
   ],
   "note": "Proved for N x D arrays; VectorProjection fails for the documented shapes with one or more than two dimensions."
  },
  {
   "property": "C95",
   "status": "partial",
   "theorems": [
    "NBK.Hdf.slice_spec",
    "NBK.Hdf.columns_partial",
    "NBK.Hdf.read_columns",
    "NBK.Hdf.sizes_error",
    "NBK.Hdf.excluded_partial",
    "NBK.Hdf.excluded_sibling",
    "NBK.Hdf.header_slash",
    "NBK.Hdf.header_dropped",
    "NBK.Hdf.header_attrs",
    "NBK.Hdf.plain_root",
    "NBK.Hdf.attrs_dataset",
    "NBK.Hdf.attrs_header",
    "NBK.Hdf.example_wf",
    "NBK.Hdf.example_read"
   ],
   "note": "Columns, reading and attributes are proved; exclusion also removes names that begin with an excluded name, a header with a slash is not excluded, its attributes are lost for a single structured array, and a plain array cannot be the dataset."
  },
  {
   "property": "C96",
   "status": "partial",
   "theorems": [
    "NBK.Slabs.slabs_spec",
    "NBK.Slabs.mu_range",
    "NBK.Slabs.cells_once",
    "NBK.Slabs.iterator_errors",
    "NBK.Slabs.iterator_total",
    "NBK.Slabs.nonsingular_spec",
    "NBK.Slabs.example_slabs",
    "NBK.Slabs.symmetry_axis_unchecked"
   ],
   "note": "Proved; a symmetry axis beyond the number of dimensions is not rejected."
  },
  {
   "property": "C97",
   "status": "partial",
   "theorems": [
    "NBK.Filters.mean_kept",
    "NBK.Filters.gaussian_range",
    "NBK.Filters.gaussian_anti",
    "NBK.Filters.gaussian_twice",
    "NBK.Filters.gaussian_zero",
    "NBK.Filters.filters_conj",
    "NBK.Filters.tophat_ball",
    "NBK.Filters.tophat_range",
    "NBK.Filters.tophat_near",
    "NBK.Filters.tophat_zero",
    "NBK.Filters.example_mode"
   ],
   "note": "Proved; TopHat(0) gives nan for all modes but the mean instead of the identity."
  },
  {
   "property": "C98",
   "status": "partial",
   "theorems": [
    "NBK.Ehu.noWiggle_range",
    "NBK.Ehu.noWiggle_antitone",
    "NBK.Ehu.noWiggle_large_scale",
    "NBK.Ehu.noWiggle_small_scale",
    "NBK.Ehu.tC_range",
    "NBK.Ehu.tC_strictMono_beta",
    "NBK.Ehu.eisensteinHu_large_scale",
    "NBK.Ehu.eisensteinHu_small_scale",
    "NBK.Ehu.eisensteinHu_bounded",
    "NBK.Ehu.eisensteinHu_paper_partial",
    "NBK.Ehu.noWiggle_paper",
    "NBK.Ehu.betaCB2_wrong",
    "NBK.Ehu.betaC_ge",
    "NBK.Ehu.paperBetaC_tendsto",
    "NBK.Ehu.betaC_wrong",
    "NBK.Ehu.alphaGamma_le",
    "NBK.Ehu.alphaGamma_case",
    "NBK.Ehu.valid_case"
   ],
   "note": "beta_c is not that of the paper: a misplaced parenthesis and a misplaced exponent (betaC_wrong, betaCB2_wrong)"
  },
  {
   "property": "C99",
   "status": "partial",
   "theorems": [
    "NBK.SurvPairs.survey_counts",
    "NBK.SurvPairs.sep_le_smoothing",
    "NBK.SurvPairs.chord",
    "NBK.SurvPairs.survey_needs_cosmo",
    "NBK.SurvPairs.grid_contains",
    "NBK.SurvPairs.grid_flat",
    "NBK.SurvPairs.piEdges_unit",
    "NBK.SurvPairs.piEdges_case",
    "NBK.SurvPairs.smoothing_beyond",
    "NBK.SurvPairs.survey_case",
    "NBK.SurvPairs.cartesian_spec",
    "NBK.SurvPairs.cell_spec",
    "NBK.SurvPairs.sepBin_spec",
    "NBK.SurvPairs.los_perp",
    "NBK.SurvPairs.angle_spec",
    "NBK.SurvPairs.domain_contains",
    "NBK.SurvPairs.domain_xyz"
   ],
   "note": "Counts proved for edges up to 180 degrees; beyond that the smoothing is too small (smoothing_beyond). The pi bins are not one unit deep unless pimax is a whole number (piEdges_case)."
  }
 ]
}