{"id": "C01", "title": "Front padding delivers exactly the preceding rows", "statement": "utils.FrontPadArray(array, front, comm) returns on every rank the `front` rows that globally precede the rank's own rows, followed by the rank's own rows; it raises ValueError on every rank exactly when some rank has fewer than `front` rows before it and otherwise never fails.", "quantifier": "every number of ranks, every per-rank length (also zero), every row type, every non-negative front", "why_tests_cant": "The claim ranges over every number of MPI processes and every way the rows are spread over them (including empty processes); a test run fixes one communicator size and one layout.", "anchors": ["nbodykit/utils.py:FrontPadArray"]}
{"id": "C02", "title": "Random numbers do not depend on the number of ranks", "statement": "For a fixed seed, chunk size and total size, the global random sequence produced by MPIRandomState.uniform/normal/poisson (concatenation over ranks, with per-row or scalar parameters) is one fixed sequence: it does not depend on how the rows are split over ranks.", "quantifier": "every partition of every total size over every number of ranks, every chunk size, every sampler whose n-sample output is a prefix of its m-sample output (n<=m)", "why_tests_cant": "The claim ranges over every number of MPI processes and every way the rows are spread over them (including empty processes); a test run fixes one communicator size and one layout.", "anchors": ["nbodykit/mpirng.py:MPIRandomState.__init__", "nbodykit/mpirng.py:MPIRandomState._call_rngmethod"]}
{"id": "C03", "title": "GatherArray returns the rows of all ranks in rank order", "statement": "utils.GatherArray(data, comm, root) returns on the receiving rank(s) the concatenation of every rank's rows in rank order, and nothing on the other ranks; for structured arrays the same holds for whole records.", "quantifier": "every number of ranks, every per-rank length, every root including Ellipsis", "why_tests_cant": "The claim ranges over every number of MPI processes and every way the rows are spread over them (including empty processes); a test run fixes one communicator size and one layout.", "anchors": ["nbodykit/utils.py:GatherArray"]}
{"id": "C04", "title": "ScatterArray is balanced and inverse to GatherArray", "statement": "utils.ScatterArray with no counts hands out contiguous pieces in rank order whose lengths sum to the total and differ by at most one; with counts that sum to the total each rank gets exactly its count; gathering the result gives the input back; counts of the wrong length or the wrong sum are rejected.", "quantifier": "every array, every number of ranks, every counts vector", "why_tests_cant": "The claim ranges over every number of MPI processes and every way the rows are spread over them (including empty processes); a test run fixes one communicator size and one layout.", "anchors": ["nbodykit/utils.py:ScatterArray", "nbodykit/utils.py:GatherArray"]}
{"id": "C05", "title": "Gather/Scatter behave the same for every root", "statement": "The documented behaviour of GatherArray and ScatterArray (shape/dtype mismatches are rejected, the data of rank `root` is what is scattered) holds for every choice of the root rank, not only root=0.", "quantifier": "every root, every number of ranks, every input", "why_tests_cant": "The claim ranges over every number of MPI processes and every way the rows are spread over them (including empty processes); a test run fixes one communicator size and one layout.", "anchors": ["nbodykit/utils.py:GatherArray", "nbodykit/utils.py:ScatterArray"]}
{"id": "C06", "title": "Even splitting tiles the global index range", "statement": "The rank ranges [n*r//P, n*(r+1)//P) used by DistributedArray.cempty and by the file catalogs tile [0,n) without gap or overlap, in rank order, with lengths differing by at most one.", "quantifier": "every n and every number of ranks P>=1", "why_tests_cant": "The claim ranges over every number of MPI processes and every way the rows are spread over them (including empty processes); a test run fixes one communicator size and one layout.", "anchors": ["nbodykit/utils.py:DistributedArray.cempty", "nbodykit/source/catalog/file.py:FileCatalogBase.__init__"]}
{"id": "C07", "title": "unique_labels is a dense global ranking", "statement": "For a globally sorted distributed array, unique_labels() gives each element the number of distinct smaller values in the whole array; hence equal values (also across rank boundaries) get equal labels, different values different labels, and labels are 0..k-1 without gaps.", "quantifier": "every sorted array, every distribution over ranks including empty ranks and values spanning many ranks", "why_tests_cant": "The claim ranges over every number of MPI processes and every way the rows are spread over them (including empty processes); a test run fixes one communicator size and one layout.", "anchors": ["nbodykit/utils.py:DistributedArray.unique_labels", "nbodykit/utils.py:LinearTopology"]}
{"id": "C08", "title": "bincount counts every element once", "statement": "For the dense labels of a globally sorted distributed array, bincount() holds, in each of its local bins, the global number of elements with that label; with shared_edges=False concatenating the local results over ranks gives the global histogram, every label exactly once.", "quantifier": "every distribution of every dense sorted label array over ranks, including empty ranks and bins spanning any number of ranks", "why_tests_cant": "The claim ranges over every number of MPI processes and every way the rows are spread over them (including empty processes); a test run fixes one communicator size and one layout.", "anchors": ["nbodykit/utils.py:DistributedArray.bincount"]}
{"id": "C09", "title": "DistributedArray.concat preserves global order", "statement": "DistributedArray.concat(a, b, ...) is globally a followed by b followed by ..., although locally each rank contributes pieces of all of them; no element is lost or duplicated, and the local sizes are the requested ones.", "quantifier": "every number of arrays, ranks and local lengths", "why_tests_cant": "The claim ranges over every number of MPI processes and every way the rows are spread over them (including empty processes); a test run fixes one communicator size and one layout.", "anchors": ["nbodykit/utils.py:DistributedArray.concat"]}
{"id": "C10", "title": "split_size_3d factorises the rank count", "statement": "split_size_3d(s) returns three positive integers with product s (so that every rank gets exactly one domain), and, as documented, a<=b<=c.", "quantifier": "every s>=1, and every rounding behaviour of the floating-point starting values", "why_tests_cant": "Infinitely many s; the starting points come from floating point powers, so sampled tests cannot exclude a rounding failure.", "anchors": ["nbodykit/utils.py:split_size_3d"]}
{"id": "C11", "title": "Data bounds are the global extrema", "statement": "get_data_bounds(data, comm, selection) returns on all ranks the component-wise minimum and maximum over all selected rows of all ranks, for every chunking; it never fails while at least one row is selected globally.", "quantifier": "every data set, every distribution over ranks, every selection, every chunk size", "why_tests_cant": "The claim ranges over every number of MPI processes and every way the rows are spread over them (including empty processes); a test run fixes one communicator size and one layout.", "anchors": ["nbodykit/utils.py:get_data_bounds"]}
{"id": "C12", "title": "Worker groups partition the ranks", "statement": "batch.split_ranks(N_ranks, N, include_all): the yielded groups are non-empty, pairwise disjoint and contain only ranks 1..N_ranks-1 (never the master); with include_all every worker rank is in exactly one group.", "quantifier": "every number of ranks and every requested group size", "why_tests_cant": "Unbounded family of (ranks, cpus_per_task) pairs with case splits on remainders.", "anchors": ["nbodykit/batch.py:split_ranks"]}
{"id": "C13", "title": "Every task is executed exactly once", "statement": "TaskManager.iterate/map: whatever the order in which workers become ready, finish and are scheduled, each task is handed to exactly one worker group and processed exactly once, map returns the results in task order, the protocol never deadlocks and all workers and the master terminate.", "quantifier": "every number of workers >=1, every task list, every interleaving of worker steps and message deliveries", "why_tests_cant": "Interleavings of the READY/START/DONE/EXIT protocol cannot be enumerated by running it.", "anchors": ["nbodykit/batch.py:TaskManager._distribute_tasks", "nbodykit/batch.py:TaskManager._get_tasks", "nbodykit/batch.py:TaskManager.map"]}
{"id": "C14", "title": "set_options always restores", "statement": "Leaving a `with set_options(...)` block, normally or by exception, and whatever nested blocks were entered and left inside, restores every option and the cache size that were in force when the block was entered; an unknown option name is rejected without changing anything; the dask cache size always equals the global_cache_size option.", "quantifier": "every nesting of with-blocks, every set of options, every exit path", "why_tests_cant": "Arbitrary nesting and exception paths.", "anchors": ["nbodykit/__init__.py:set_options", "nbodykit/__init__.py:GlobalCache"]}
{"id": "C15", "title": "The current communicator is restored", "statement": "CurrentMPIComm.enter(comm) makes comm current inside the block and restores the previous communicator after the block, on every exit path including exceptions; with nested blocks the innermost communicator is current.", "quantifier": "every nesting of enter/push/pop, every exit path", "why_tests_cant": "Arbitrary nesting and exception paths.", "anchors": ["nbodykit/__init__.py:CurrentMPIComm"]}
{"id": "C16", "title": "Catalog columns obey override > hard > default", "statement": "Reading a column gives the last value assigned to it, else the hard-coded column, else the default column, else KeyError/ValueError; deleting an assigned column uncovers the value below; a hard-coded column cannot be deleted; a column of the wrong length is rejected and leaves the catalog unchanged; other columns are never affected.", "quantifier": "every sequence of set/delete/get operations on every catalog", "why_tests_cant": "Histories of operations are unbounded.", "anchors": ["nbodykit/base/catalog.py:CatalogSourceBase.__getitem__", "nbodykit/base/catalog.py:CatalogSourceBase.__setitem__", "nbodykit/base/catalog.py:CatalogSourceBase.__delitem__"]}
{"id": "C17", "title": "Copies are independent of the original", "statement": "Changing columns or attrs of a catalog obtained by copy(), view() or by slicing does not change the catalog it was obtained from, and vice versa.", "quantifier": "every sequence of column/attrs updates on either object after the derivation", "why_tests_cant": "Histories of operations on aliased objects are unbounded.", "anchors": ["nbodykit/base/catalog.py:CatalogSourceBase.copy", "nbodykit/base/catalog.py:CatalogSourceBase.view", "nbodykit/base/catalog.py:CatalogSourceBase._get_slice", "nbodykit/base/catalog.py:CatalogSourceBase.__finalize__"]}
{"id": "C18", "title": "Catalog slicing has Python slice semantics", "statement": "cat[start:stop:step], cat[mask] and cat[list] contain exactly the rows that the same index selects from a numpy array, in the same order, and the size of the new catalog equals the number of rows selected, for every start/stop/step (negative, out of range, missing) with step != 0.", "quantifier": "every size, every start, stop, step", "why_tests_cant": "Integer boundary arithmetic over unbounded values.", "anchors": ["nbodykit/base/catalog.py:CatalogSourceBase._get_slice"]}
{"id": "C19", "title": "Global slicing selects the global rows", "statement": "cat.gslice(start, stop, step, redistribute) selects the rows of the global catalog that the Python slice selects, in the same order, independent of the distribution over ranks; with redistribute=True the result is spread evenly.", "quantifier": "every distribution, every start/stop/step", "why_tests_cant": "The claim ranges over every number of MPI processes and every way the rows are spread over them (including empty processes); a test run fixes one communicator size and one layout.", "anchors": ["nbodykit/base/catalog.py:CatalogSource.gslice"]}
{"id": "C20", "title": "Catalog sort is a lexicographic global sort", "statement": "cat.sort(keys, reverse) returns a catalog whose global rows are a permutation of the input rows, ordered by the keys lexicographically (first key most significant), ascending, or descending if reverse=True, for integer and floating keys of either sign, independent of the distribution.", "quantifier": "every catalog, every list of keys, every key value, every distribution", "why_tests_cant": "The claim ranges over every number of MPI processes and every way the rows are spread over them (including empty processes); a test run fixes one communicator size and one layout.", "anchors": ["nbodykit/base/catalog.py:CatalogSource.sort", "nbodykit/base/catalog.py:_sort_data"]}
{"id": "C21", "title": "Row ranges written by save tile the file", "statement": "The per-rank write offsets used by save() tile the file: no two ranks write the same row and no row is left unwritten, and reading the file back with any number of ranks and query ranges gives the same global catalog.", "quantifier": "every number of writing and reading ranks and every local length", "why_tests_cant": "The claim ranges over every number of MPI processes and every way the rows are spread over them (including empty processes); a test run fixes one communicator size and one layout.", "anchors": ["nbodykit/base/catalog.py:CatalogSourceBase.save", "nbodykit/source/catalog/file.py:FileCatalogBase"]}
{"id": "C22", "title": "ConcatenateSources keeps every row aligned", "statement": "transform.ConcatenateSources returns a catalog whose rows are exactly the rows of the sources (each exactly once, all requested columns of a row kept together), whose local size is the sum of the local sizes; it is rejected if a requested column is missing from any source.", "quantifier": "every number of sources, every column list, every distribution", "why_tests_cant": "The claim ranges over every number of MPI processes and every way the rows are spread over them (including empty processes); a test run fixes one communicator size and one layout.", "anchors": ["nbodykit/transform.py:ConcatenateSources"]}
{"id": "C23", "title": "File indexing by mask or integer list reads exactly those rows", "statement": "file[mask] and file[list of ints] return exactly the rows that numpy indexing would return, in the same order, including repeated, unsorted and negative indices, for every mask (also all False) and list.", "quantifier": "every index array and every file size", "why_tests_cant": "Run-length grouping over arbitrary index sequences.", "anchors": ["nbodykit/io/base.py:find_slice_chunks", "nbodykit/io/base.py:FileType.__getitem__"]}
{"id": "C24", "title": "A file stack reads like one long file", "statement": "FileStack.read(columns, start, stop, step) equals slicing the concatenation of the individual files, whatever the sizes of the files (including empty files) and wherever start and stop fall.", "quantifier": "every list of file sizes, every 0<=start<=stop<=total, every step>=1", "why_tests_cant": "Boundary conditions at every file boundary for arbitrary stacks.", "anchors": ["nbodykit/io/stack.py:FileStack.read", "nbodykit/io/tools.py:get_file_slice", "nbodykit/io/tools.py:global_to_local_slice"]}
{"id": "C25", "title": "Slice sizes agree with Python", "statement": "io.tools.get_slice_size(start, stop, step) is the number of rows that start:stop:step selects, so file[start:stop:step] works for every slice that works on an array, giving an empty result for empty slices and reversed rows for negative steps.", "quantifier": "all integers start, stop and step != 0", "why_tests_cant": "Unbounded integers.", "anchors": ["nbodykit/io/tools.py:get_slice_size", "nbodykit/io/binary.py:BinaryFile.read"]}
{"id": "C26", "title": "Binary column files read back what was written", "statement": "For a BinaryFile whose columns are stored one after another behind a header, read(columns, start, stop, step) returns for each column exactly the stored items start, start+step, ... < stop; the inferred size equals the number of rows; a file whose length is not a whole number of rows is rejected.", "quantifier": "every header size, list of column item sizes, number of rows, and row range", "why_tests_cant": "Unbounded layouts.", "anchors": ["nbodykit/io/binary.py:BinaryFile", "nbodykit/io/binary.py:getsize"]}
{"id": "C27", "title": "CSV partitions tile the file by whole lines", "statement": "However a CSV file is cut into byte blocks, the blocks actually read are consecutive, disjoint, cover the file, and cut only at line ends, so that every line is read by exactly one partition.", "quantifier": "every file content and every block size", "why_tests_cant": "Every content/block-size combination, lines longer than the block, cuts on delimiters.", "anchors": ["nbodykit/io/csv.py:make_partitions", "nbodykit/io/csv.py:CSVFile.read"]}
{"id": "C28", "title": "CSV row counts equal the rows parsed", "statement": "The size reported for a CSV file is the number of rows the parser yields (blank lines and skipped rows not counted, a missing final newline allowed, nrows respected), for every content and block size.", "quantifier": "every file content, block size, skiprows and nrows", "why_tests_cant": "Every content/block-size combination.", "anchors": ["nbodykit/io/csv.py:make_partitions"]}
{"id": "C29", "title": "Range queries on a file catalog compose", "statement": "FileCatalog.query_range(start,end) yields the catalog of exactly the file rows [start,end) in order, spread evenly over ranks; repeated queries keep addressing the rows they name.", "quantifier": "every chain of queries, every number of ranks", "why_tests_cant": "The claim ranges over every number of MPI processes and every way the rows are spread over them (including empty processes); a test run fixes one communicator size and one layout.", "anchors": ["nbodykit/source/catalog/file.py:FileCatalogBase.query_range"]}
{"id": "C30", "title": "Gadget-1 blocks are located correctly", "statement": "For a Gadget-1 snapshot laid out as Fortran records, the column data read for a particle type are exactly the items of that type in that block, for every mixture of particle types, item sizes and absent blocks; a record whose markers disagree is rejected.", "quantifier": "every particle count vector, mass table, precision and column list", "why_tests_cant": "Unbounded layouts.", "anchors": ["nbodykit/io/gadget.py:Gadget1File"]}
{"id": "C31", "title": "Mesh actions are applied in order and only to the view", "statement": "mesh.apply(f) returns a new mesh whose field is f applied after all earlier actions, in the order they were attached and each in the space (real/complex) it was attached for; the original mesh is unaffected; the painted field depends only on the base field and the action list.", "quantifier": "every action sequence of both kinds, every requested output space", "why_tests_cant": "Unbounded histories of actions on shared objects.", "anchors": ["nbodykit/base/mesh.py:MeshSource.apply", "nbodykit/base/mesh.py:MeshSource._paint_XXX"]}
{"id": "C32", "title": "Chunked painting deposits every particle exactly once", "statement": "When painting in chunks, whatever memory throttling happens at whatever chunk, every selected row of every rank is deposited exactly once with its own weight and the loop terminates; it fails only if a single row cannot be painted.", "quantifier": "every data size, chunk size, and every pattern of out-of-memory throttling", "why_tests_cant": "The throttling schedule depends on run-time memory use.", "anchors": ["nbodykit/source/mesh/catalog.py:CatalogMesh.to_real_field"]}
{"id": "C33", "title": "Hermitian weights account for the missing half of Fourier space", "statement": "Summing a field with weights over the stored half of the modes equals summing over all modes, for every mesh size (even or odd).", "quantifier": "every mesh size, every Hermitian-symmetric summand, every slab decomposition", "why_tests_cant": "All mesh sizes and fields.", "anchors": ["nbodykit/meshtools.py:MeshSlab.hermitian_weights", "nbodykit/meshtools.py:MeshSlab.nonsingular", "nbodykit/algorithms/fftpower.py:project_to_basis"]}
{"id": "C34", "title": "Binned projections count every mode once, for every decomposition", "statement": "project_to_basis assigns each mode to exactly one (x,mu) bin (lower edge inclusive, upper edge exclusive, mu=1 included in the last bin), drops exactly the modes outside the edges, and its counts and averages do not depend on how the mesh is split over slabs and ranks.", "quantifier": "every mesh, edges and decomposition", "why_tests_cant": "The claim ranges over every number of MPI processes and every way the rows are spread over them (including empty processes); a test run fixes one communicator size and one layout.", "anchors": ["nbodykit/algorithms/fftpower.py:project_to_basis"]}
{"id": "C35", "title": "ProjectedFFTPower weights hold for every mesh size", "statement": "The mode weights used by ProjectedFFTPower count every mode of the full plane exactly once for every Nmesh.", "quantifier": "every Nmesh >= 1", "why_tests_cant": "All mesh sizes.", "anchors": ["nbodykit/algorithms/fftpower.py:ProjectedFFTPower.run"]}
{"id": "C36", "title": "FOF groups are the connected components", "statement": "Provided every pair of friends shares a rank, the distributed friends-of-friends merging terminates and labels two particles equally exactly when a chain of friends connects them; the label is the smallest particle id of the component; hence the grouping does not depend on the number of ranks or the decomposition.", "quantifier": "every set of particles and friend pairs, every decomposition with ghosts, every order of merging", "why_tests_cant": "The claim ranges over every number of MPI processes and every way the rows are spread over them (including empty processes); a test run fixes one communicator size and one layout.", "anchors": ["nbodykit/algorithms/fof.py:_fof_merge", "nbodykit/algorithms/fof.py:_fof_local"]}
{"id": "C37", "title": "FOF labels are ordered by group size and respect nmin", "statement": "FOF.labels: label 0 means 'not in a halo'; particles have the same positive label iff they belong to the same group; labels are 1..n without gaps in order of decreasing size; exactly the groups with fewer than nmin members are dropped.", "quantifier": "every grouping, every nmin, every distribution", "why_tests_cant": "The claim ranges over every number of MPI processes and every way the rows are spread over them (including empty processes); a test run fixes one communicator size and one layout.", "anchors": ["nbodykit/algorithms/fof.py:_assign_labels"]}
{"id": "C38", "title": "equiv_class reduces each label's values", "statement": "equiv_class(labels, values, op) returns for every label the op-reduction of exactly the values carrying that label, in their original order; labels outside [0,minlength) handling and empty classes as documented.", "quantifier": "every label array and value array", "why_tests_cant": "Unbounded inputs.", "anchors": ["nbodykit/algorithms/fof.py:equiv_class"]}
{"id": "C39", "title": "replacesorted replaces exactly the matching entries", "statement": "replacesorted(arr, sorted, b) maps every entry of arr that occurs in `sorted` to the corresponding entry of b and leaves all other entries unchanged.", "quantifier": "every arr, every sorted array, every b", "why_tests_cant": "Unbounded inputs.", "anchors": ["nbodykit/algorithms/fof.py:replacesorted"]}
{"id": "C40", "title": "Cylindrical groups equal the serial greedy selection", "statement": "CylindricalGroups: independent of the distribution over ranks, an object is a central iff no higher-ranked object within the cylinder is a central; no two centrals are within each other's cylinder; each satellite belongs to its highest-ranked paired central, and the satellite counts sum to the number of satellites.", "quantifier": "every set of objects, pair relation and assignment to ranks", "why_tests_cant": "The claim ranges over every number of MPI processes and every way the rows are spread over them (including empty processes); a test run fixes one communicator size and one layout.", "anchors": ["nbodykit/algorithms/cgm.py:cgm", "nbodykit/algorithms/cgm.py:_find_centrals"]}
{"id": "C41", "title": "Fiber assignment yields a collision-free population", "statement": "FiberCollisions: within every collision group, and for every random choice, no two objects that receive a fiber are within the collision radius; every collided object has a fiber-holding neighbour assigned, the nearest one.", "quantifier": "every group, every geometry, every sequence of random choices", "why_tests_cant": "All geometries and all random outcomes.", "anchors": ["nbodykit/algorithms/fibercollisions.py:FiberCollisions._assign_multiplets"]}
{"id": "C42", "title": "Fiber assignment is maximal", "statement": "As documented, the clean population is maximal: no collided object could be given a fiber without colliding with a clean object, i.e. the minimum number of objects is collided.", "quantifier": "every group, every geometry, every sequence of random choices", "why_tests_cant": "All geometries and all random outcomes.", "anchors": ["nbodykit/algorithms/fibercollisions.py:FiberCollisions"]}
{"id": "C43", "title": "Binned results survive a save/load round trip", "statement": "BinnedStatistic.to_json/from_json and from_state(__getstate__()) give back an object that behaves identically under every later operation (values, edges, coordinates, mask, and how variables are combined when re-binned).", "quantifier": "every data set and every later operation", "why_tests_cant": "All data sets and follow-up operation sequences.", "anchors": ["nbodykit/binned_statistic.py:BinnedStatistic.__getstate__", "nbodykit/binned_statistic.py:BinnedStatistic.from_state", "nbodykit/binned_statistic.py:BinnedStatistic.from_json"]}
{"id": "C44", "title": "Selecting bins keeps data and edges aligned", "statement": "Any selection (slice, list of indices, boolean mask, sel/take) keeps each kept bin's data together with that bin's own lower and upper edge.", "quantifier": "every number of bins, every index list", "why_tests_cant": "All index patterns.", "anchors": ["nbodykit/binned_statistic.py:BinnedStatistic.__slice_edges__", "nbodykit/binned_statistic.py:BinnedStatistic.take", "nbodykit/binned_statistic.py:BinnedStatistic.__getitem__"]}
{"id": "C45", "title": "Re-binning conserves totals and averages", "statement": "reindex/average: for a variable in fields_to_sum the sum over the bins kept is unchanged and every new bin holds the sum of its old bins; for other variables every new bin holds the (weighted) mean of the valid old bins; bins are grouped consecutively.", "quantifier": "every shape, every spacing factor, every data and mask", "why_tests_cant": "All shapes and data.", "anchors": ["nbodykit/binned_statistic.py:bin_ndarray", "nbodykit/binned_statistic.py:BinnedStatistic.reindex"]}
{"id": "C46", "title": "Calls to reindex do not influence each other", "statement": "The result of reindex/average depends only on the object and the arguments of that call, never on earlier calls on other objects; the caller's list argument is not modified.", "quantifier": "every history of calls on every set of objects", "why_tests_cant": "Histories of calls.", "anchors": ["nbodykit/binned_statistic.py:BinnedStatistic.reindex"]}
{"id": "C47", "title": "The mask marks exactly the invalid bins", "statement": "At every time, mask is True exactly in the bins where some variable is not finite, also after assigning variables.", "quantifier": "every sequence of assignments", "why_tests_cant": "Histories of assignments.", "anchors": ["nbodykit/binned_statistic.py:BinnedStatistic.__setitem__", "nbodykit/binned_statistic.py:BinnedStatistic.__init__"]}
{"id": "C48", "title": "Pair counts do not depend on chunking or ranks", "statement": "Pair-count results (npairs, weighted pairs, average separation) are the pair-weighted totals over all chunks and ranks, independent of the chunking, of the number of ranks and of the order of reduction.", "quantifier": "every split of the primaries into chunks and ranks", "why_tests_cant": "The claim ranges over every number of MPI processes and every way the rows are spread over them (including empty processes); a test run fixes one communicator size and one layout.", "anchors": ["nbodykit/algorithms/pair_counters/corrfunc/base.py:CorrfuncResult.__add__", "nbodykit/algorithms/pair_counters/corrfunc/base.py:MPICorrfuncCallable.__call__"]}
{"id": "C49", "title": "Total weighted pairs is the sum over distinct pairs", "statement": "total_wnpairs equals the sum of w_i*w_j over unordered pairs of distinct objects for auto-correlations, and half the sum over all cross pairs for cross-correlations, independent of the distribution.", "quantifier": "every weight vector, every distribution", "why_tests_cant": "The claim ranges over every number of MPI processes and every way the rows are spread over them (including empty processes); a test run fixes one communicator size and one layout.", "anchors": ["nbodykit/algorithms/pair_counters/base.py:PairCountBase.__init__"]}
{"id": "C50", "title": "Redshift histogram counts every object in range once", "statement": "RedshiftHistogram, with the bins given as a sequence of edges or as a number of bins: each bin holds the weight of exactly the objects with lower edge <= z < upper edge, independent of the distribution; objects outside the edges are dropped; nbar times the shell volume is that weight.", "quantifier": "every catalog, edges and distribution", "why_tests_cant": "The claim ranges over every number of MPI processes and every way the rows are spread over them (including empty processes); a test run fixes one communicator size and one layout.", "anchors": ["nbodykit/algorithms/zhist.py:RedshiftHistogram.run"]}
{"id": "C51", "title": "JSON encoding is invertible", "statement": "Decoding what JSONEncoder produced gives back the same value (arrays with dtype and shape, structured and subarray dtypes, complex numbers, quantities, nested lists and dictionaries).", "quantifier": "every value built from the supported types, any nesting", "why_tests_cant": "Unbounded nesting and shapes, including empty arrays.", "anchors": ["nbodykit/utils.py:JSONEncoder", "nbodykit/utils.py:JSONDecoder"]}
{"id": "C52", "title": "Multi-species meshes are the sum of the species", "statement": "The mesh of a MultipleSpeciesCatalog is the sum of the species' unnormalised meshes divided by the total number per cell, with mean one; N is the total count.", "quantifier": "every number of species and every catalog", "why_tests_cant": "All species lists and data.", "anchors": ["nbodykit/source/mesh/species.py:MultipleSpeciesCatalogMesh.to_real_field"]}
{"id": "C53", "title": "Species columns address the right catalog", "statement": "For species and column names without a further '/', cat['species/col'] reads, sets and deletes the column of that species only; every other name (no valid species prefix, or more than one '/') is rejected and changes nothing; catalogs passed in are not modified, neither by the construction nor by later updates.", "quantifier": "every sequence of operations on every set of species names", "why_tests_cant": "Histories of operations.", "anchors": ["nbodykit/source/catalog/species.py:MultipleSpeciesCatalog", "nbodykit/source/catalog/species.py:split_column"]}
{"id": "C54", "title": "Counts and centers of mass of groups", "statement": "count gives, for every label, the number of particles of all ranks with it; centerofmass gives the mean position of the group for non-periodic data, and for periodic data, when the group spans less than half a box from its reference particle, a position in the box that equals the mean of the unwrapped positions up to box lengths.", "quantifier": "every distribution of labels and positions over ranks", "why_tests_cant": "All groups, boxes and distributions.", "anchors": ["nbodykit/algorithms/fof.py:count", "nbodykit/algorithms/fof.py:centerofmass"]}
{"id": "C55", "title": "Peak particles of groups", "statement": "With a peak column, the particles used for PeakPosition are exactly those whose value is the largest of their group over all ranks.", "quantifier": "every distribution of labels and values over ranks", "why_tests_cant": "All data and distributions.", "anchors": ["nbodykit/algorithms/fof.py:fof_catalog"]}
{"id": "C56", "title": "Re-binned edges are edges of the old bins", "statement": "reindex: the k-th new edge is the (k*factor)-th old edge, the other dimensions keep their edges, and the new coordinates are the centers of the new bins; for bins of different widths it raises instead.", "quantifier": "every number of bins, factor and edges", "why_tests_cant": "All edges and factors.", "anchors": ["nbodykit/binned_statistic.py:BinnedStatistic.reindex"]}
{"id": "C57", "title": "average combines all bins of a dimension", "statement": "average(dim) removes the dimension, and every value left is the sum (variables to sum) or the (weighted) mean over all bins of that dimension.", "quantifier": "every shape, every data", "why_tests_cant": "All shapes and data.", "anchors": ["nbodykit/binned_statistic.py:BinnedStatistic.average"]}
{"id": "C58", "title": "Selections keep the coordinates of the bins", "statement": "Selecting bins or variables keeps the coordinate of every bin kept.", "quantifier": "every selection, edges and coordinates", "why_tests_cant": "All coordinates and selections.", "anchors": ["nbodykit/binned_statistic.py:BinnedStatistic.__slice_edges__", "nbodykit/binned_statistic.py:BinnedStatistic.__finalize__"]}
{"id": "C59", "title": "Landy-Szalay estimator", "statement": "The correlation function of a bin with random pairs is (DD - DR - RD + RR)/RR, every count divided by the total weighted pairs of its two catalogs (data2 = data1 and randoms2 = randoms1 when not given); a bin without random pairs is NaN; the result does not depend on the distribution over processes nor on a common factor of the weights of a catalog.", "quantifier": "every catalog, weight, binning and distribution", "why_tests_cant": "The claim is about all weights and distributions; a test compares one catalog with one reference value.", "anchors": ["nbodykit/algorithms/paircount_tpcf/estimators.py:LandySzalayEstimator"]}
{"id": "C60", "title": "Natural estimator of unclustered data is zero", "statement": "With analytic randoms, the correlation function is zero in every bin when the weighted pairs of the data fill the bins in proportion to their volume, for auto- and cross-correlations.", "quantifier": "every number of objects, weights, bins", "why_tests_cant": "All catalogs; the deviation of order 1/N is below the noise of any test on random data.", "anchors": ["nbodykit/algorithms/paircount_tpcf/estimators.py:NaturalEstimator", "nbodykit/algorithms/paircount_tpcf/estimators.py:AnalyticUniformRandoms.__call__"]}
{"id": "C61", "title": "Filling factors are volume fractions", "statement": "The filling factor of a bin is the fraction of the box volume (sphere area in angular mode) at that separation from a point: shells for '1d', their mu slices for '2d' (adding up to the shell), hollow cylinders of height 2*pimax for 'projected', rings of the unit sphere for 'angular'.", "quantifier": "every binning", "why_tests_cant": "All edges; tests on random catalogs do not resolve a relative error of the order of the squared angle.", "anchors": ["nbodykit/algorithms/paircount_tpcf/estimators.py:AnalyticUniformRandoms.get_filling_factor"]}
{"id": "C62", "title": "Projected correlation function and multipoles", "statement": "wp is twice the integral of the correlation over the line-of-sight bins for every accepted pimax, and the monopole is the mean of the wedges weighted by the bin widths.", "quantifier": "every pimax >= 1, every correlation", "why_tests_cant": "All values of pimax, including those with a single bin.", "anchors": ["nbodykit/algorithms/paircount_tpcf/tpcf.py:_compute_wp", "nbodykit/algorithms/paircount_tpcf/estimators.py:WedgeBinnedStatistic.to_poles"]}
{"id": "C63", "title": "Default redshift bins count every object", "statement": "With the default bins (Scott's rule) of RedshiftHistogram, the histogram counts every object of the catalog, for every distribution over processes.", "quantifier": "every catalog and distribution, including equal redshifts and empty processes", "why_tests_cant": "The objects lost are those at an exact boundary; random test data never meet it.", "anchors": ["nbodykit/algorithms/zhist.py:scotts_bin_width", "nbodykit/algorithms/zhist.py:RedshiftHistogram.__init__"]}
{"id": "C64", "title": "Cosmology parameters reach CLASS", "statement": "Every parameter given to Cosmology() reaches CLASS with the given value under its CLASS name; two names of the same parameter raise; parameters not given have their defaults; CLASS never sees an alias, verbose or None; massive neutrinos set N_ncdm and N_ur, a fluid sets the cosmological constant to zero.", "quantifier": "every dictionary of keyword arguments", "why_tests_cant": "Aliases, conflicts, defaults and special rules interact; the number of combinations of names is exponential.", "anchors": ["nbodykit/cosmology/cosmology.py:Cosmology.__init__", "nbodykit/cosmology/cosmology.py:compile_args", "nbodykit/cosmology/cosmology.py:check_args"]}
{"id": "C65", "title": "clone changes what is asked and nothing else", "statement": "c.clone(**kw) has the given values for the given parameters and the values of c for every parameter that is not determined by them; c.clone() has exactly the parameters of c.", "quantifier": "every cosmology and every keyword arguments", "why_tests_cant": "A test changes one parameter and looks at a few others; the claim is about all of them and about aliases.", "anchors": ["nbodykit/cosmology/cosmology.py:Cosmology.clone", "nbodykit/cosmology/cosmology.py:merge_args", "nbodykit/cosmology/cosmology.py:compile_args"]}
{"id": "C66", "title": "match reaches the derived parameter", "statement": "c.match(sigma8=s), c.match(Omega0_cb=x) and c.match(Omega0_m=x) give a cosmology whose derived parameter is the requested one, with the proportion of baryons and all other parameters unchanged; giving none or several raises ValueError.", "quantifier": "every cosmology and every target", "why_tests_cant": "Exactness for all cosmologies; rests on the interplay with clone and the conflict table.", "anchors": ["nbodykit/cosmology/cosmology.py:Cosmology.match"]}
{"id": "C67", "title": "astropy round trip", "statement": "Cosmology.from_astropy(c.to_astropy()) has the Hubble parameter, temperature, densities, neutrino masses (in decreasing order) and dark energy of c.", "quantifier": "every cosmology, including w0 = -1 with wa != 0", "why_tests_cant": "The failing corner needs w0 exactly -1 with nonzero wa.", "anchors": ["nbodykit/cosmology/cosmology.py:Cosmology.to_astropy", "nbodykit/cosmology/cosmology.py:astropy_to_dict"]}
{"id": "C68", "title": "FKP weights", "statement": "FKPCatalog(data, randoms, P0) gives every object of both species the weight 1/(1 + P0*nbar) (1 if P0 = 0), in (0, 1] and not increasing with nbar; with P0=None an existing FKPWeight column is kept and a missing one is 1. No other column changes; randoms=None gives an empty species; a missing nbar column raises ValueError exactly then.", "quantifier": "all catalogs, distributions, P0 >= 0, nbar >= 0", "why_tests_cant": "Tests use one catalog and one P0.", "anchors": ["nbodykit/algorithms/convpower/catalog.py:7-106"]}
{"id": "C69", "title": "FKP bounding box", "statement": "to_mesh without an explicit box gives a box that contains every selected object: recentred coordinates lie in [-L/2, L/2], L is the padded extent rounded up to an integer, and box and center do not depend on the distribution over ranks. A given BoxSize or BoxCenter is used as it is.", "quantifier": "all catalogs, selections, distributions, paddings, chunk sizes", "why_tests_cant": "Tests have data inside the randoms' box and select everything.", "anchors": ["nbodykit/algorithms/convpower/catalog.py:108-259", "nbodykit/utils.py:23-82"]}
{"id": "C70", "title": "FKP density field", "statement": "The field is (weighted data - alpha * weighted randoms) / cell volume with alpha the ratio of the selected completeness weights; its integral is the difference of the weighted numbers, zero for equal FKP weights; it does not change when the randoms are replicated, their completeness weights are scaled, or the objects are redistributed over ranks; it has the unit of the weights of the data over a volume; without randoms it is the density of the data.", "quantifier": "all catalogs, windows, meshes, distributions", "why_tests_cant": "Tests compare one spectrum with a stored one.", "anchors": ["nbodykit/algorithms/convpower/catalogmesh.py:80-244"]}
{"id": "C71", "title": "Normalization and shot noise of ConvolvedFFTPower", "statement": "data.norm and randoms.norm are the documented sums of nbar*w_comp*w_fkp1*w_fkp2 (times alpha for randoms), the spectra are divided by randoms.norm, norms that differ by more than 5% raise ValueError, and the shot noise is (sum over data + alpha^2 sum over randoms of w_comp^2 w_fkp1 w_fkp2)/randoms.norm, a finite number, however often it is asked for; all independent of the distribution over ranks, and replicating the randoms k times divides their part of the shot noise by k. Changing the units of weights, densities and lengths changes spectra and shot noise by the same factor, the unit of weights over that of densities, and no decision.", "quantifier": "all catalogs, weights, distributions, numbers of copies", "why_tests_cant": "Tests check one catalog; the limits (no randoms, second call) are not exercised.", "anchors": ["nbodykit/algorithms/convpower/fkp.py:515-545", "nbodykit/algorithms/convpower/fkp.py:646-748"]}
{"id": "C72", "title": "Boxes of a cross-correlation", "statement": "ConvolvedFFTPower(first, second) accepts exactly the meshes of the same FKPCatalog with the same selection, completeness weight and nbar columns, and afterwards both meshes have one box (size and center) that contains every object that was in either box, and the fields are those of meshes made with this box.", "quantifier": "all pairs of meshes", "why_tests_cant": "Tests use meshes with equal boxes.", "anchors": ["nbodykit/algorithms/convpower/fkp.py:148-187", "nbodykit/algorithms/convpower/fkp.py:789-799", "nbodykit/algorithms/convpower/catalogmesh.py:101-115"]}
{"id": "C73", "title": "Multipoles of a survey", "statement": "For every list of different multipoles ConvolvedFFTPower returns exactly these columns in increasing order, and the column power_ell is the projection on the bins of norm * A_0 * conj(A_ell) with A_ell = 4 pi V sum over m of Y_lm(k) FFT(Y_lm(x) F(x)): the reuse and aliasing of the work arrays, the other multipoles asked for, their order and the auto-correlation shortcut have no influence; by the addition theorem this is the Yamamoto estimator. Other lists of multipoles are rejected with a ValueError.", "quantifier": "all fields, lists of multipoles, transforms and memory contents", "why_tests_cant": "Tests run a fixed list [0, 2, 4]; stale work arrays show only for other lists and orders.", "anchors": ["nbodykit/algorithms/convpower/fkp.py:417-644"]}
{"id": "C74", "title": "Wedges from multipoles", "statement": "to_pkmu(mu_edges, max_ell) succeeds exactly when every even multipole up to max_ell is measured, depends on no other multipole, and gives in each bin the average over the wedge of the sum of P_ell L_ell(mu), with the wavenumber of the multipoles and the middle of the wedge. The width-weighted sum of the wedges is independent of how the range is cut, and over [0, 1] and [-1, 1] the average is the monopole.", "quantifier": "all multipoles, bins, edges and max_ell", "why_tests_cant": "Tests call it once with fixed edges and check no value.", "anchors": ["nbodykit/algorithms/convpower/fkp.py:285-338"]}
{"id": "C75", "title": "Reconstructed density", "statement": "FFTRecon returns the combination of its scheme: LGS = D(data - s) - D(randoms - s), LRR = D(data) - (D(randoms + s) + D(randoms - s)) / 2, LF2 = 3/7 LGS + 4/7 LRR, with D the painted density in units of its mean. Every object enters once; the field adds up to zero and does not depend on the chunk size, the ranks and the order of the objects.", "quantifier": "all catalogs, distributions, chunk sizes, windows and transforms", "why_tests_cant": "The test runs one catalog and checks no value; mistakes in the combination or in the last chunk change numbers only.", "anchors": ["nbodykit/algorithms/fftrecon.py:134-215"]}
{"id": "C76", "title": "Displacements of the reconstruction", "statement": "For tracers whose modes are (b + f mu^2) times those of the matter, mu the cosine between wave vector and the given line of sight, the data are moved back by the Zel'dovich displacement of the smoothed matter plus f times its component along the line of sight, and the randoms by the displacement alone, or with that component if revert_rsd_random is set. Only the direction of los matters, neither its length nor its sign.", "quantifier": "all lines of sight, biases, growth rates and fields", "why_tests_cant": "Tests use the default line of sight [0, 0, 1].", "anchors": ["nbodykit/algorithms/fftrecon.py:97-101", "nbodykit/algorithms/fftrecon.py:217-268"]}
{"id": "C77", "title": "Gaussian fields", "statement": "Every mode of gaussian_complex_fields has the power P(k)/V times that of the white noise, none at k = 0; minus the divergence of the displacement is the density and the displacement is along k; inverted_phase changes the sign of density and displacement.", "quantifier": "all modes, power spectra and white noise", "why_tests_cant": "Tests compare averaged power of one seed within a tolerance.", "anchors": ["nbodykit/mockmaker.py:74-139"]}
{"id": "C78", "title": "Sampling points from a density", "statement": "poisson_sample_to_points gives every cell as many objects as its item of a global random sequence with the mean nbar times the cell volume times the lognormal density, each with the displacement of its cell and uniformly distributed in its cell, in the order of the cells; the catalog does not depend on the number of ranks and the decomposition; the means add up to nbar times the volume.", "quantifier": "all meshes, densities, seeds, ranks and decompositions", "why_tests_cant": "Tests use cubic boxes and compare two rank counts.", "anchors": ["nbodykit/mockmaker.py:203-354"]}
{"id": "C79", "title": "Seeds of random catalogs", "statement": "All ranks of a random catalog agree on seed and size and share the rows without gaps; the recorded seed makes the same catalog again on any number of ranks, also if no seed was given.", "quantifier": "all seeds, sizes, ranks and states of the random number generators", "why_tests_cant": "Tests pass a seed.", "anchors": ["nbodykit/source/catalog/uniform.py:28-97", "nbodykit/source/catalog/lognormal.py:85-96", "nbodykit/source/mesh/linear.py:53-57"]}
{"id": "C80", "title": "Multipoles of the three-point function", "statement": "The multipole corr_l of SimulationBox3PCF and SurveyData3PCF in the bins (r1, r2) is (2l+1)/(4 pi)^2 times the sum over all triangles of a primary and two secondaries at separations in the bins (open on the left, closed on the right, nearest image in a periodic box) of the product of the three weights and the Legendre polynomial of the angle; it depends neither on the ranks, the bunches nor the order of the enumeration, and is symmetric in r1 and r2.", "quantifier": "all catalogs, weights, bins, multipoles, ranks, bunches and boxes", "why_tests_cant": "Tests compare one catalog with stored results of another code.", "anchors": ["nbodykit/algorithms/threeptcf.py:35-150"]}
{"id": "C81", "title": "Power spectra after assignments", "statement": "After any sequence of assignments to redshift and sigma8, LinearPower and ZeldovichPower have the values assigned last and give the power of a new object at that redshift, scaled with sigma8 squared; at redshift 0 the fluctuations within 8 Mpc/h are sigma8.", "quantifier": "all histories of assignments, transfer functions, cosmologies and wavenumbers", "why_tests_cant": "Tests assign one or two values.", "anchors": ["nbodykit/cosmology/power/linear.py:33-156", "nbodykit/cosmology/power/zeldovich.py:54-131"]}
{"id": "C82", "title": "Values of power spectra", "statement": "With the transfer function of CLASS, LinearPower is proportional to CLASS's linear power with one factor for all redshifts and wavenumbers up to P_k_max, and follows the fitting formula beyond, without a jump at P_k_max; transfer functions are 1 at small wavenumbers at redshift 0 and scale with the growth factor; HalofitPower gives the nonlinear power, the linear one at the smallest wavenumbers, and refuses wavenumbers beyond P_k_max.", "quantifier": "all wavenumbers (numbers or arrays, integers or floats), redshifts and cosmologies", "why_tests_cant": "Tests evaluate floats at one redshift within a tolerance.", "anchors": ["nbodykit/cosmology/power/linear.py:114-156", "nbodykit/cosmology/power/transfers.py", "nbodykit/cosmology/power/halofit.py:63-95"]}
{"id": "C83", "title": "Growth functions are normalised where asked, exact at the given steps, and obey the growth equation", "statement": "MatterDominated(..., a=A, a_normalize=n) and RadiationDominated: D1(n)=D2(n)=1; at every a in A, D1 and D2 of orders 0,1,2 are the solution, its derivative and its second derivative against ln a, divided by the value at n. efunc_prime is the derivative of efunc, gp=dGp/da and gf=dGf/da. With matter only D1=a/n, D2=(a/n)^2, f1=1, f2=2. The fluid model LinearNbody gives the same linear growth when all species move together without pressure.", "quantifier": "all cosmologies, lists of steps, normalisations, scale factors and solutions", "why_tests_cant": "The tests compare one cosmology with a Boltzmann code at a few redshifts and at a_normalize=1.", "anchors": ["nbodykit/cosmology/background.py:19-208", "nbodykit/cosmology/background.py:231-323", "nbodykit/cosmology/linearnbody.py:93-145"]}
{"id": "C84", "title": "Populating and repopulating halos is reproducible and depends only on halos, parameters and seed", "statement": "HaloCatalog.populate(model, seed=s, **params) on a model instance not used before gives galaxies that depend only on the halos, the parameters and s. After any sequence of repopulate calls (also failed ones) repopulate(seed=s, **params) gives the catalog, attrs and error that a first populate would give with s and all parameters set so far. An unknown parameter raises ValueError and changes nothing. VelocityOffset is Velocity (1+z)/(100 E(z)). The integer gal_type of each galaxy is the one attrs['gal_types'] names.", "quantifier": "all models, halos, numbers of ranks, seeds, parameter sets and histories of calls", "why_tests_cant": "The tests repopulate once or twice with two galaxy types and always one model per halo catalog.", "anchors": ["nbodykit/source/catalog/halos.py:202-317", "nbodykit/source/catalog/halos.py:319-454"]}
{"id": "C85", "title": "KDDensity is the inverse cube of the distance to the eighth nearest particle on any number of ranks", "statement": "KDDensity(source).density of each particle is 1/d^3 with d the periodic distance to the eighth nearest particle of the whole catalog (counting itself), the same for any number of ranks, any distribution of particles, and covariant under a change of the unit of length; fewer than eight particles give density 0.", "quantifier": "all positions in the box, ranks, distributions, margins", "why_tests_cant": "The test checks that the density exists and is positive for one catalog.", "anchors": ["nbodykit/algorithms/kdtree.py:27-86"]}
{"id": "C86", "title": "decompose keeps every row once, on the rank of its domain, with all columns in step", "statement": "catalog.decompose(domain, position, columns) / SubVolumesCatalog: every object of the source is on exactly one rank, the one the domain assigns to its position; on each rank row i of every exchanged column belongs to the same object; sizes and attrs agree. A column not asked for is not taken from the source.", "quantifier": "all catalogs, domains, columns and distributions", "why_tests_cant": "The test has one random catalog and looks at the total number.", "anchors": ["nbodykit/source/catalog/subvolumes.py:24-66", "nbodykit/base/catalog.py:754-785"]}
{"id": "C87", "title": "The compensation undoes the window, or whitens the shot noise exactly", "statement": "A mesh painted with compensated=True: with interlacing, each mode of a smooth field with |w| <= pi is divided by exactly the Fourier transform of the mass assignment window (cic, tsc, pcs) along each axis, so the field is restored; without interlacing, the power of a Poisson sample, averaged over the positions in the cell, is one for every frequency; no division by zero or root of a negative number. Every name accepted by to_mesh either has a compensation or raises; setting and constructing with a name are the same.", "quantifier": "all real frequencies, windows, names and actions", "why_tests_cant": "The kernels were fitted (see the comments) and the tests compare spectra of one mesh with tolerances.", "anchors": ["nbodykit/source/mesh/catalog.py:94-137", "nbodykit/source/mesh/catalog.py:404-594", "nbodykit/base/catalog.py:846-873"]}
{"id": "C88", "title": "With dk=0 each bin holds the modes of one |k|", "statement": "FFTPower(dk=0), ConvolvedFFTPower(dk=0) and FFTCorr(dr=0): the returned coordinates are the distinct values of |k| (|r|) below kmax in increasing order; the edges increase from 0; each value below kmax is in exactly one bin, that of its own value, and modes at or above kmax are in no bin; the bins are the same on any number of ranks.", "quantifier": "all meshes, boxes, limits, numbers of ranks and distributions of modes", "why_tests_cant": "One cubic mesh is tested; the failures are seen for special numbers of cells, boxes that are not cubes, and several ranks.", "anchors": ["nbodykit/algorithms/fftpower.py:732-769", "nbodykit/algorithms/fftpower.py:288-296"]}
{"id": "C89", "title": "FFTCorr is the mean product of the fields at a separation", "statement": "FFTCorr(first, mode, second): before binning the result at separation r is the mean over the mesh of first(x+r) second(x) less the product of the means, independent of the box volume, of constants added to the fields and of a common shift; for auto correlations it is symmetric, real and largest at r=0. In each bin of r (mode='1d') the result is the mean over all separations in the bin and `modes` their number, on any number of ranks. The in-place product over slabs is right also if both sources are the same. shotnoise is that of the source for auto spectra and 0 otherwise.", "quantifier": "all fields on all meshes, decompositions into slabs, bins", "why_tests_cant": "Tests compare with one uniform catalog, for which the correlation is noise.", "anchors": ["nbodykit/algorithms/fftpower.py:89-140", "nbodykit/algorithms/fftcorr.py:98-205"]}
{"id": "C90", "title": "ProjectedFFTPower is the mean power of the projected field", "statement": "ProjectedFFTPower(first, second, axes): in each bin `power` is the mean over all Fourier modes of the plane (line) of the kept axes with |k| in the bin of c1 c2*, where c are the 3D coefficients at zero wavenumber along the other axes, times the product of the lengths of the kept axes; `k` is their mean |k| and `modes` their number; the zero mode has power 0. The bins start at kmin in steps of dk and end within half a step of the smallest Nyquist wavenumber. Only the sums along the other axes matter; moving both fields, or adding constants, changes nothing; scaling fields scales the power; exchanging or mirroring them conjugates it; an auto power is real and not negative; stretching the box by s with kmin and dk divided by s multiplies the power with s per kept axis. With dk an integer multiple c of another dk, a row of the result is the mean of c rows of the other weighted by their modes.", "quantifier": "all real fields, mesh sizes (even and odd), boxes, axes and increasing edges", "why_tests_cant": "Tests use one even mesh and look at the auto power.", "anchors": ["nbodykit/algorithms/fftpower.py:412-487"]}
{"id": "C91", "title": "Attributes of catalogs and meshes are read back from the file they were saved to", "statement": "Every entry of attrs of a catalog or mesh written by save() is found in attrs of the BigFileCatalog or BigFileMesh opened from the file, with the same value; nothing else is there. The shape, box and number of cells of a stored mesh are those of the stored field.", "quantifier": "every set of attributes, every nesting of values, every name of datasets and headers", "why_tests_cant": "Values nest without limit and the tests compare with assert_array_equal, which broadcasts numbers against arrays; a test covers one catalog with a handful of attributes.", "anchors": ["nbodykit/base/catalog.py:CatalogSourceBase.save", "nbodykit/base/mesh.py:MeshSource.save", "nbodykit/io/bigfile.py:BigFile.__init__", "nbodykit/source/mesh/bigfile.py:BigFileMesh.__init__", "nbodykit/base/mesh.py:MeshSource.__init__"]}
{"id": "C92", "title": "A saved mesh has the same value in every cell when loaded", "statement": "The file written by MeshSource.save holds the values in C order whatever the ranks hold; BigFileMesh opened with any number of ranks returns the same value in every cell, in the same space and precision; an ArrayMesh has the values of the array of the root rank, in the shape of the mesh it came from.", "quantifier": "every number of ranks when writing and reading, every way the cells are spread over them, every root", "why_tests_cant": "Tests write and read with the same communicator and one mesh; only saving in Fourier space is tested.", "anchors": ["nbodykit/base/mesh.py:MeshSource.save", "nbodykit/source/mesh/bigfile.py:BigFileMesh.to_real_field", "nbodykit/source/mesh/bigfile.py:BigFileMesh.to_complex_field", "nbodykit/source/mesh/array.py:ArrayMesh.__init__"]}
{"id": "C93", "title": "Sky coordinates and Cartesian positions are inverse to each other", "statement": "CartesianToEquatorial returns RA in [0,360) and DEC in [-90,90]; SkyToUnitSphere returns unit vectors; the position of (ra, dec, z) seen by the observer has the same dec and ra up to full turns; every position is its distance times the unit vector of its sky coordinates plus the observer; CartesianToSky after SkyToCartesian returns ra, dec and z; a peculiar velocity shifts z by v_r/c (1+z).", "quantifier": "all positions, observers, angles, redshifts, strictly increasing distance-redshift relations and interpolation grids", "why_tests_cant": "Tests compare a few random points within a tolerance, with the observer at the origin; poles, wrap-around and the interpolation error need an argument over the reals.", "anchors": ["nbodykit/transform.py:CartesianToEquatorial", "nbodykit/transform.py:CartesianToSky", "nbodykit/transform.py:SkyToUnitSphere", "nbodykit/transform.py:SkyToCartesian"]}
{"id": "C94", "title": "Stacked columns and projected vectors", "statement": "StackColumns of columns with n items, or one item, has n rows; row i has item i of every column in order. VectorProjection returns for every vector the component along the direction: the result is a multiple of the direction, the rest is orthogonal to it, whatever the length of the direction; for vectors of shape (..., D) the result has the same shape.", "quantifier": "any number of columns, any lengths, any dimension D, all vectors and non-zero directions, all shapes", "why_tests_cant": "Tests use one direction and N x 3 arrays.", "anchors": ["nbodykit/transform.py:StackColumns", "nbodykit/transform.py:VectorProjection"]}
{"id": "C95", "title": "Columns of HDF files", "statement": "HDFFile has one column for every plain dataset and every field of a structured dataset at or below `dataset`, except the excluded ones and the header; all have the size of the file, else ValueError; read returns the rows start:stop:step of the dataset or field; `attrs` holds the attributes of the header and of every dataset. Exactly the columns at or below an excluded path are left out.", "quantifier": "every tree of groups and datasets, every path, every list of excluded names, every header, every list of columns and range", "why_tests_cant": "Tests read one file with two datasets; names that begin with an excluded name, headers with a slash, and a path to a plain array are not tried.", "anchors": ["nbodykit/io/hdf.py:find_datasets", "nbodykit/io/hdf.py:HDFFile.__init__", "nbodykit/io/hdf.py:HDFFile.read"]}
{"id": "C96", "title": "Slabs have the coordinates of their cells", "statement": "SlabIterator along any axis yields one MeshSlab per index; every cell of the mesh is a point of exactly one slab; norm2, mu and hermitian_weights at a point are |x|^2, x.los/|x| (0 for x=0) and 2 or 1 according to the sign of the coordinate along the symmetry axis, of the cell; |mu| <= 1 for a unit line of sight; invalid dimensions, axes and shapes are errors.", "quantifier": "all coordinate arrays in two or three dimensions, all axes (negative ones too), symmetry axes and lines of sight", "why_tests_cant": "Tests compare slabs with the full array for one mesh; broadcasting with sizes 1 and every pair of axes are not covered.", "anchors": ["nbodykit/meshtools.py:MeshSlab.coords", "nbodykit/meshtools.py:MeshSlab.norm2", "nbodykit/meshtools.py:MeshSlab.mu", "nbodykit/meshtools.py:MeshSlab.hermitian_weights", "nbodykit/meshtools.py:SlabIterator"]}
{"id": "C97", "title": "Filters", "statement": "TopHat and Gaussian leave the mean mode unchanged, never amplify a mode, and map real fields to real fields; the factor of TopHat(r) is the mean of the plane wave over a ball of radius r and differs from 1 by at most (kr)^2/10; Gaussian filters compose with radii in quadrature, and radius 0 is the identity for both.", "quantifier": "all wavenumbers in any number of dimensions, all radii and values", "why_tests_cant": "Tests only check that the filters run; inequalities and integral identities need proofs over the reals.", "anchors": ["nbodykit/filters.py:TopHat.filter", "nbodykit/filters.py:Gaussian.filter"]}
{"id": "C98", "title": "The Eisenstein-Hu transfer functions are normalised and follow the published fit", "statement": "For every cosmology with 0 < Omega_b < Omega_m, h > 0 and Tcmb > 0, EisensteinHu and NoWiggleEisensteinHu (at redshift 0) tend to one as k tends to 0, tend to zero as k tends to infinity, and are finite in between; the smooth one lies in (0, 1] and decreases with k when 0 < alpha_gamma <= 1.  Both evaluate the formulas of Eisenstein & Hu (1998), including beta_c.", "quantifier": "all cosmologies, all wavenumbers", "why_tests_cant": "the tests compare with CLASS to within a few percent at a few wavenumbers for one cosmology, where the two errors in beta_c almost cancel", "anchors": ["nbodykit/cosmology/power/transfers.py:73-183", "nbodykit/cosmology/power/transfers.py:185-255"]}
{"id": "C99", "title": "Survey pair counts are those of all pairs, for any domain decomposition", "statement": "SurveyDataPairCount(mode, first, edges, cosmo, second, ...) gives in every bin the number and the summed weight product of all pairs (one object of each catalog) whose separation - distance, distance and mu, projected distance and line-of-sight distance, or angle in degrees - lies in the bin; for every distribution of the objects over ranks, every process grid and assignment of grid cells to ranks, and every order of the reduction. The smoothing length of the decomposition is at least the separation of every counted pair. The pi bins of mode 'projected' are one unit deep.", "quantifier": "all catalogs, all edges (up to 180 degrees for angles), all cosmologies, all rank counts, grids and reduction orders", "why_tests_cant": "the tests compare with a brute-force count for random catalogs on at most a few ranks; pairs missed at the border of a domain need a separation close to the last edge", "anchors": ["nbodykit/algorithms/pair_counters/mocksurvey.py:91-190", "nbodykit/algorithms/pair_counters/domain.py:130-318", "nbodykit/algorithms/pair_counters/corrfunc/mocks.py:1-330"]}
{"id": "C100", "title": "Line of sight, box and angular mode of the pair counts in a simulation box", "statement": "SimulationBoxPairCount accepts as los exactly 'x', 'y', 'z' and the integers -3..2, counts with that axis as the last coordinate (other separations unchanged), uses the BoxSize of its argument or of the sources and rejects sources that disagree with it. In mode 'angular' positions in [0, BoxSize] or [-BoxSize/2, BoxSize/2] are moved so that the observer is at the centre of the box, the same for both catalogs, and the counts are those of the angles seen by that observer; the catalogs of the user are not changed.", "quantifier": "all los arguments, all box sizes, all catalogs, edges up to 180 degrees, all rank counts, grids and reduction orders", "why_tests_cant": "the tests pass los='z' or 2, one BoxSize for both sources and uniform catalogs filling the box", "anchors": ["nbodykit/algorithms/pair_counters/simbox.py:76-125", "nbodykit/algorithms/pair_counters/simbox.py:127-266", "nbodykit/algorithms/pair_counters/base.py:100-165"]}
{"id": "C101", "title": "The spherical harmonics satisfy the addition theorem", "statement": "For every degree l the functions get_real_Ylm(l, m), -l <= m <= l, of two unit vectors u and v satisfy sum_m Y_lm(u) Y_lm(v) = (2l+1)/(4 pi) P_l(u.v) with P_l the Legendre polynomial (the same for the complex harmonics of the three-point function), are even or odd with l, and equal the expressions in angles which sympy is asked to simplify. Hence the multipoles of ConvolvedFFTPower are those of the Yamamoto estimator and those of the 3PCF are sums over triangles weighted with P_l, for all multipoles; every cell of the mesh has a direction.", "quantifier": "all degrees and orders, all unit vectors, all meshes and catalogs", "why_tests_cant": "the tests compare get_real_Ylm with scipy for a few l and m at random angles; the sum over m and larger l are never checked", "anchors": ["nbodykit/algorithms/convpower/fkp.py:12-73", "nbodykit/algorithms/convpower/fkp.py:455-466", "nbodykit/algorithms/convpower/fkp.py:530-538", "nbodykit/algorithms/threeptcf.py:482-534"]}
{"id": "C102", "title": "Multipoles of the correlation from wedges", "statement": "WedgeBinnedStatistic.to_poles(poles) of wedges that are the averages of a correlation xi(r, mu) over the mu bins returns the multipoles (2 ell + 1) / (mu_max - mu_min) * integral of xi(r, mu) L_ell(mu) dmu; for bins from 0 to 1 and a correlation made of even multipoles these are its coefficients. The separation of a row is the mean separation of the pairs.", "quantifier": "all continuous correlations, all increasing edges in [-1, 1], all multipoles, all numbers of bins", "why_tests_cant": "The multipoles are inexact by an amount depending on the bins and on ell, which a comparison with one reference file or with a tolerance does not reveal; convergence is a statement about all numbers of bins.", "anchors": ["nbodykit/algorithms/paircount_tpcf/estimators.py:10-51"]}
{"id": "C103", "title": "Correlation functions follow the redshift and sigma8 of their power", "statement": "CorrelationFunction(power) accepts every power object of the package. Whatever redshift and sigma8 are assigned, in any order, through any CorrelationFunction of the power or through the power itself, its values are the transform of the power at the last redshift, rescaled by (sigma8 / sigma8 of the cosmology)^2, and attrs describes the power in use. smoothing is the standard deviation of the Gaussian in Fourier space applied to P(k).", "quantifier": "all histories of assignments, all cosmologies, all numbers of objects sharing a power, all smoothing scales", "why_tests_cant": "Tests set one attribute of one object once; shared power objects and stale meta-data need histories.", "anchors": ["nbodykit/cosmology/correlation.py:70-144", "nbodykit/cosmology/power/linear.py:86-112", "nbodykit/cosmology/power/halofit.py:24-61"]}
{"id": "C104", "title": "Galaxy power with primordial non-Gaussianity", "statement": "FNLGalaxyPower(k) is the linear power times the square of the total bias; for fNL = 0 or b0 = p the total bias is b0 at every wavenumber; otherwise it is b0 plus the published 3 fNL (b0 - p) delta_c Omega_m / (k^2 T(k) D(z)) (H0 / c)^2.", "quantifier": "all cosmologies, redshifts, transfer functions, wavenumbers and bias parameters", "why_tests_cant": "Tests compare with numbers computed by the same formula; the dependence on amplitude and redshift is a relation between cosmologies.", "anchors": ["nbodykit/cosmology/power/galaxy.py:51-128"]}
{"id": "C105", "title": "Selection of bins by coordinate values, and renaming and squeezing", "statement": "BinnedStatistic.sel(method=None, dim=value, ...) returns, in every dimension, the bins whose coordinates were asked for (exactly, or with method='nearest' the nearest ones; a slice of increasing coordinates is the half-open range start <= coordinate < stop), with the data, mask and edges of these bins, and without the dimensions that were given a single number. It fails exactly if a name is no dimension, a value stands for no bin, or every dimension would be squeezed. rename_variable changes one name only and fails exactly if the old name is missing or the new one belongs to another variable. squeeze() without a name succeeds exactly if one dimension has length one and another remains. Violations to be recorded: a list loses its order and repeats, gaps in a list give edges and coordinates that are not those of the bins; no slice can contain the last bin, so the recipe sel(mu=slice(*mu_range), method='nearest') loses the last mu bin of the full range; slices without start or stop fail and steps are ignored; a renamed variable of fields_to_sum is averaged by reindex.", "quantifier": "all BinnedStatistic objects of any number of dimensions and bins, all keyword lists, both methods", "why_tests_cant": "The tests select a few literal coordinates of one data set with small slices; they never look at the edges of a list with gaps, at the last bin of a slice, or at all combinations of keys over any number of dimensions.", "anchors": ["nbodykit/binned_statistic.py:406-423", "nbodykit/binned_statistic.py:568-662", "nbodykit/binned_statistic.py:745-805", "nbodykit/algorithms/paircount_tpcf/estimators.py:15-19"]}
{"id": "C106", "title": "TaskManager context and all ranks of the worker groups", "statement": "Inside `with TaskManager(...)` all ranks agree on the number of workers; the ranks of a worker group, in order, form exactly that group's communicator, and the root shares one communicator with the ranks that do no work; as many ranks ask the master for tasks as it waits for; the warning counts the idle ranks. The context is refused exactly if there is one rank, or no group can be formed. For every schedule, with buffered or synchronous messages and broadcasts: all ranks of a group run the same tasks in the same order, never more than one task apart; there is no deadlock; every run ends within a bound; at the end every rank has left its loop, each task was run by exactly one group, and map returns the values in task order (iterate yields each task on all ranks of one group).", "quantifier": "all numbers of ranks, group sizes and tasks; all interleavings of all ranks", "why_tests_cant": "Tests run a handful of ranks with one schedule; deadlocks and out-of-step broadcasts show only for particular interleavings and group shapes.", "anchors": ["nbodykit/batch.py:84-151", "nbodykit/batch.py:171-295", "nbodykit/batch.py:297-346"]}
{"id": "C107", "title": "FFTPower and FFTCorr from arguments to results", "statement": "FFTPower(...) and FFTCorr(...) accept a field, mesh or catalog whose BoxSize and Nmesh agree with the keywords; the run uses the box and mesh of the first source. The bins are [min + i*d, min + (i+1)*d) up to the last multiple below the maximum (for a cube with an even number of cells: the multiples of 2 pi/L up to the Nyquist frequency); each row of .power is the mean over exactly the modes of its (k, mu) bin; the 'modes' columns of .power and .poles both sum to the number of modes in range; in 1d the monopole equals the power; attrs hold N1, N2 and the shot noise of an auto-correlation; valid arguments never fail; save followed by load gives the same object. The power and every multipole do not depend on which multipoles are asked for. Two calls of FFTPower with bins of one positive width that differ only in kmax: the edges and every column of the smaller one are the beginning of those of the larger one. With dk a whole multiple c of another dk (same kmin and kmax), every bin holds the modes of the c narrow bins that fill it: the number of modes is their sum, and k, mu, the power and the multipoles are their means weighted by the number of modes. The same for bins of mu: with c times as many, every bin of mu holds the modes of the c bins that fill it.", "quantifier": "all sources, keywords, boxes, meshes, line of sight vectors, bins, numbers of mu bins and lists of multipoles, all spectra, ranks and slabs", "why_tests_cant": "tests use a few meshes with many bins and several mu bins; they do not load results without multipoles, pass one catalog twice, or ask for a single bin", "anchors": ["nbodykit/algorithms/fftpower.py:27-359", "nbodykit/algorithms/fftpower.py:703-730", "nbodykit/algorithms/fftcorr.py:63-235"]}
{"id": "C108", "title": "Pair count and two-point correlation function objects, from arguments to saved results", "statement": "Whichever counter is used, the pair counts have the dimensions and edges that the mode asks for (Nmu equal bins of mu on [0,1], floor(pimax) equal bins along the line of sight), and these are the ones made again on loading; npairs and wnpairs are the columns to be summed. SimulationBox2PCF without randoms uses the natural estimator with analytic randoms of the box exactly if it is periodic, and otherwise the Landy-Szalay estimator of the pair counts of the catalogs, the second randoms being the first ones by default; without randoms all else is a ValueError. The value in a bin is that of the estimator formula. A projected correlation function has wp = sum 2 xi dpi over the same bins of rp. load returns what save wrote.", "quantifier": "for all modes, edges, counts, catalogs, boxes and keywords, for both classes", "why_tests_cant": "The tests fix one set of bins and arguments per class, load objects that were never averaged afterwards, never pass random pairs of other bins, and never use pimax below 2 or a non-integer one.", "anchors": ["nbodykit/algorithms/pair_counters/base.py", "nbodykit/algorithms/pair_counters/simbox.py", "nbodykit/algorithms/pair_counters/mocksurvey.py", "nbodykit/algorithms/paircount_tpcf/tpcf.py", "nbodykit/algorithms/paircount_tpcf/estimators.py"]}
{"id": "C109", "title": "ConvolvedFFTPower: from arguments to saved results", "statement": "ConvolvedFFTPower(first, poles, second, Nmesh, kmin, kmax, dk) accepts FKP catalogs and meshes made from the same catalog with the same selection, completeness weight and density columns, and otherwise raises ValueError / TypeError / NotImplementedError before touching a mesh. The table has a column k, the columns power_ell of the multipoles asked for (in ascending order, each the bin average of norm A_0 conj(A_ell)) and modes; attrs record the arguments and the box that was used. The sources are not changed, the result for a mesh does not depend on earlier calls, and load(save(r)) gives r back.", "quantifier": "all sources, meshes in any state, multipole lists, binning arguments, files and formats", "why_tests_cant": "The tests run a few catalogs once; state left in the mesh objects between calls, failing runs and unknown formats are combinations that are not run.", "anchors": ["nbodykit/algorithms/convpower/fkp.py:133-284", "nbodykit/algorithms/convpower/fkp.py:340-410", "nbodykit/algorithms/convpower/fkp.py:417-457", "nbodykit/algorithms/convpower/fkp.py:750-799", "nbodykit/algorithms/convpower/catalogmesh.py:105-119"]}
{"id": "C110", "title": "FOF finds exactly the groups of friends, as features and as halos", "statement": "FOF(source, linking_length, nmin, absolute, periodic) followed by to_halos(particle_mass, cosmo, redshift) returns, on any number of (non-empty) ranks and any decomposition that gives every pair of friends to some rank, one halo for each set of particles connected by chains of friends (pairs within the linking length, with images in a periodic box) with more than nmin particles, the largest first; its Mass is particle_mass times the number of particles, its Velocity the mean velocity, its Position the mean position, which in a periodic box is the mean of the unwrapped positions brought back into the box; with posdef='peak' the means run over the particles of the group at the highest value of peakcolumn. The relative linking length is in units of the mean separation (BoxSize volume over the number of particles, to the power 1/ndim). find_features returns the same rows after an empty row for the particles without group, spread evenly, with attrs those of the source updated with the arguments. The result is the same for a scalar BoxSize as for three equal numbers.", "quantifier": "all particles, ranks, decompositions, linking lengths, nmin, sorting routines, peak columns; all fuel beyond a bound", "why_tests_cant": "the groups depend on the positions, on the decomposition over ranks and on the order of merging; no finite set of runs covers them", "anchors": ["nbodykit/algorithms/fof.py:10-195", "nbodykit/algorithms/fof.py:339-533", "nbodykit/algorithms/fof.py:647-700"]}
{"id": "C111", "title": "FiberCollisions separates the objects that get fibers by more than the collision radius", "statement": "For right ascensions and declinations distributed over ranks, FiberCollisions returns one row per input object, in the input order, with Label, Collided and NeighborID. No two objects with Collided = 0 are within the collision radius of each other on the sky. Each object with Collided = 1 has in NeighborID the global index of the nearest object with a fiber on the sky; the others have -1. Label is 0 exactly for objects that have no neighbor, and such objects are never collided; of two objects that form a group exactly one is collided. Objects further apart than the collision radius do not collide.", "quantifier": "for all numbers of ranks, all objects on each rank, all radii, units and seeds, all results of the random choices and all orders of the objects in a group", "why_tests_cant": "The test uses one random catalog on a small patch with a radius of one arc minute and checks a few totals; the difference of chord and angle, the periodic box, and ranks with no or one object never show.", "anchors": ["nbodykit/algorithms/fibercollisions.py:46-142", "nbodykit/algorithms/fibercollisions.py:144-288", "nbodykit/algorithms/fof.py:339-440"]}
{"id": "C112", "title": "CylindricalGroups groups the objects of a catalog by rank within cylinders", "statement": "For a catalog and the columns to rank by, CylindricalGroups returns one row per object of the catalog, on the same ranks and in the same order. The objects are ranked by the values of the columns. An object is a central (cgm_type 0) unless a higher ranked central lies within its cylinder of radius rperp and half height rpar (periodic images included if asked for, line of sight fixed or towards the midpoint of the pair). A satellite (cgm_type 1) carries the cgm_haloid of the highest ranked central within its cylinder. num_cgm_sats of a central is the number of its satellites, and cgm_haloid numbers the centrals by descending rank from 0. Invalid arguments raise ValueError and leave the catalog as it was; after the grouping the catalog has the columns it had before.", "quantifier": "for all catalogs on all numbers of ranks, all ranking columns, radii, lines of sight and boxes, and all domain decompositions that send the needed ghosts", "why_tests_cant": "The tests compare a few random catalogs with stored results; columns called origind, objects at the origin, empty ranks, the edges of the domain grid and the priority of the box of the source do not occur.", "anchors": ["nbodykit/algorithms/cgm.py:58-196", "nbodykit/algorithms/cgm.py:262-318", "nbodykit/base/catalog.py:1100-1164"]}
{"id": "C113", "title": "File objects show the columns and rows of the file", "statement": "A BinaryFile, TPMBinaryFile, FITSFile or FileStack opens with the columns of its data type and one row for each record of the file(s); file[names] has these columns in the order asked for, and a selection of a selection is the selection of the file; file[name] and file[names].asarray() hold, for every supported row index, the values of the columns side by side with [i, j] addressing row and column; get_dask(column) computes to the column for any chunk size; wrong requests raise.", "quantifier": "all files, data types, headers, offsets, chains of selections, row indices (forward slices, integers, masks, lists), chunk sizes, lists of files", "why_tests_cant": "tests open a few files with scalar or 3-vector columns, default offsets and one chunk size", "anchors": ["nbodykit/io/base.py:FileType.__getitem__", "nbodykit/io/base.py:FileType.asarray", "nbodykit/io/base.py:FileType.get_dask", "nbodykit/io/binary.py:BinaryFile.__init__", "nbodykit/io/tpm.py:TPMBinaryFile.__init__", "nbodykit/io/fits.py:FITSFile.__init__", "nbodykit/io/stack.py:FileStack.__init__"]}
{"id": "C114", "title": "A CSV file object holds the numbers of its file with the promised types", "statement": "CSVFile(path, names, ...) accepts exactly the keywords it supports and files whose rows are tables of numbers with one column per name; the columns are usecols in the order given; the type of a column is the one the caller asks for, else the one of its data; file[name][i] returns the numbers of the column converted to that type, for every index and block size.", "quantifier": "every file content, every splitting of lines into cells, every combination of the keywords, every column, every index", "why_tests_cant": "The result depends on where blocks begin and on rows far behind those that are inspected; tests use small clean files with the default engine.", "anchors": ["nbodykit/io/csv.py:CSVFile.__init__", "nbodykit/io/csv.py:verify_data", "nbodykit/io/csv.py:CSVFile.read", "nbodykit/io/csv.py:CSVPartition.value"]}
{"id": "C115", "title": "BinnedStatistic.from_plaintext gives back what a plain text file holds", "statement": "For every file in the documented plain text layout, of one dimension (a line of column names, a line per bin, the edges, the metadata) or two, `BinnedStatistic.from_plaintext` makes an object with the dimensions asked for, the edges, the columns (real, or complex from the pair name.real and name.imag) and the metadata of the file, keywords overriding metadata. For any file at all, reading comes to an end; an object that comes out has one more edge than bins along each dimension and one value per bin in each column; otherwise an exception is raised, and those of the reader are ValueErrors.", "quantifier": "All numbers of bins, all real and complex columns, edges, metadata and keywords; all ways to write numbers that float and int can read; all files, character by character, for the end of reading and for consistency.", "why_tests_cant": "The tests load one file of each kind. The loop moves its position by a count found in the file, so whether it ends, and what is data and what is a comment, depends on every line; the parsing of names, blanks and types has unboundedly many cases.", "anchors": ["nbodykit/binned_statistic.py:505-552", "nbodykit/binned_statistic.py:957-1030", "nbodykit/binned_statistic.py:1032-1140"]}
{"id": "C116", "title": "Meta-data and meshes of several species", "statement": "A MultipleSpeciesCatalog built from names and catalogs has one species per name; every attribute k of the catalog of species s is available as attrs['s.k'] and column c as cat['s/c'], and columns lists exactly these. to_mesh takes BoxSize and Nmesh from the keywords or from the species, which must agree, and fails with ValueError if they disagree, if none has them, or if a species lacks one of the four columns. mesh[s] is a mesh of the catalog of s with box, mesh size, dtype, flags and actions of the whole as they are at that time.", "quantifier": "All lists of names, catalogs with arbitrary columns and meta-data (numbers, vectors, None, others), all keywords and all later changes of attributes and of the list of names.", "why_tests_cant": "The tests use two catalogs 'data' and 'randoms' with equal scalar boxes and no dots or slashes in names; nothing is changed between construction and use.", "anchors": ["nbodykit/source/catalog/species.py:12-156", "nbodykit/source/catalog/species.py:157-223", "nbodykit/source/catalog/species.py:298-330", "nbodykit/source/mesh/species.py:1-108", "nbodykit/base/mesh.py:61-79"]}
{"id": "C117", "title": "The LogNormalCatalog object", "statement": "LogNormalCatalog has one row per sampled object: Position is the periodic image in the box of the place of the object in its cell plus the displacement of the cell, VelocityOffset is the growth rate times the displacement, Velocity is 100 E(z)/(1+z) times that. attrs hold what the catalog was made with, before what Plin.attrs says; made again from its attrs the catalog is the same, and on any number of ranks. Without cosmology, redshift or objects it raises ValueError.", "quantifier": "All power spectra with any subset of the attributes cosmo, redshift, attrs; all boxes, meshes, seeds, densities and biases; all fields and generators; all layouts of the cells on the ranks.", "why_tests_cant": "The tests check one seed and box on 1 and 4 ranks, and compare with a power spectrum made for the same cosmology and redshift.", "anchors": ["nbodykit/source/catalog/lognormal.py:54-114", "nbodykit/source/catalog/lognormal.py:137-191", "nbodykit/mockmaker.py:143-200"]}
{"id": "C118", "title": "The three-point function objects give the triangles of their catalog", "statement": "SimulationBox3PCF(source, poles, edges, BoxSize, periodic, weight, position).poles and SurveyData3PCF(source, poles, edges, cosmo, ...).poles hold, for every multipole l in the order of poles and every pair of bins, (2l+1)/(4 pi)^2 times the sum over all triangles of objects of the source (a primary and two secondaries in the two bins) of the product of the three weights and the Legendre polynomial of the angle between the sides. Positions are the periodic images when periodic, the comoving positions for surveys. The number of ranks, the layout of the source on the ranks, the image by which an object is given, the tree and pedantic change nothing. The table of harmonics holds every (l, m) with 0 <= m <= l once on any number of ranks, and cached powers never change a value. A missing column, no or contradictory BoxSize, separations beyond half a periodic box, and a missing cosmology are refused. load(save) gives the object back.", "quantifier": "all catalogs, weights, boxes, edges, multipoles, cosmologies, numbers of ranks, layouts, process grids, outcomes of the load balancing, orders and bunches of the tree, earlier calls of the cache", "why_tests_cant": "tests compare with a stored result of one catalog on one or four ranks; they cannot cover all layouts, the primaries at borders of cells and boxes, or catalogs with few objects", "anchors": ["nbodykit/algorithms/threeptcf.py:14-33", "nbodykit/algorithms/threeptcf.py:152-191", "nbodykit/algorithms/threeptcf.py:234-288", "nbodykit/algorithms/threeptcf.py:344-390", "nbodykit/algorithms/threeptcf.py:402-481", "nbodykit/algorithms/pair_counters/domain.py:47-132", "nbodykit/algorithms/pair_counters/base.py:126-159"]}
{"id": "C119", "title": "The Cosmology object: attributes, constructors and copies", "statement": "An attribute of a Cosmology that is neither of the class nor set on the instance is that of the first delegate class which has it, computed with the parameters of the object; each delegate is made at most once and earlier reads never change a value. Names of delegates cannot be assigned. dir lists, sorted and once, the delegate classes and their names. Positional arguments mean the same as keywords; conflicting, duplicate or mixed old and new names are refused. The old names give the parameters they name. from_dict(dict(c)), pickling and copy give the same parameters; clone, from_file, from_astropy and the constructor make a dictionary of their own, so changing any other dictionary does not affect the object.", "quantifier": "all parameter dictionaries, all positional and keyword arguments, all delegate classes and their attributes, all histories of attribute reads, all heaps of dictionaries", "why_tests_cant": "tests read a few attributes in one order, and use keyword arguments of one signature; they do not compare the engine with a dictionary changed afterwards", "anchors": ["nbodykit/cosmology/cosmology.py:7-19", "nbodykit/cosmology/cosmology.py:118-226", "nbodykit/cosmology/cosmology.py:351-450", "nbodykit/cosmology/cosmology.py:664-709"]}
{"id": "C120", "title": "The HaloCatalog object and its HOD models", "statement": "HaloCatalog(source, cosmo, redshift, mdef, mass, position, velocity) has the columns Mass, Position and Velocity that the source has at that time under the given names, or the last values set on the catalog, after any changes of columns. VelocityOffset is Velocity (1+z)/(100 E(z)); Concentration and Radius are the formulas at the present Mass. attrs are those of the source with the arguments and the names of the mass and radius columns. A source without the columns, or that is no catalog, is refused. to_halotools(BoxSize) gives on each rank one row per halo with the three components of position and velocity, mass, radius and concentration, ids that number all halos of all ranks from 0, no parents, and the metadata; the box is the argument or that of attrs; without halos or box it raises ValueError. A subset of halos has the selected rows. populate accepts the classes and instances of nbodykit.hod and halotools models; the model uses the cosmology, redshift, mass definition and mass column of the catalog, and the column named concentration_key for the concentrations. DemoHaloCatalog is such a catalog from the cached or downloaded file, or raises the error on all ranks.", "quantifier": "all sources, cosmologies, redshifts, mass definitions, names, sequences of changes of columns and attributes, ranks, selections, keywords of models", "why_tests_cant": "the tests need halotools and downloaded catalogs, and populate one catalog with default columns; they never change the source or the catalog afterwards, never use another concentration key or an instance of a model class", "anchors": ["nbodykit/source/catalog/halos.py:10", "nbodykit/source/catalog/halos.py:134", "nbodykit/source/catalog/halos.py:246", "nbodykit/hod.py:56", "nbodykit/hod.py:122", "nbodykit/transform.py:376", "nbodykit/transform.py:440", "nbodykit/tutorials/halos.py:35"]}
{"id": "C121", "title": "ArrayCatalog: agreement of ranks, live references to the caller's data, attributes of columns, persist", "statement": "ArrayCatalog(data, **kwargs) succeeds exactly if on every rank data has at least one column, all columns of a rank have the same length and all ranks have the same names with the same types, in whatever order (a dictionary on one rank goes together with a structured array on another); the columns are then sorted by name, size is the length on the rank and csize the sum. Either all ranks get a catalog or none does; an inconsistency raises on every rank. Columns are fixed by the constructor: later changes of the caller's dictionary do not change the length of a column. Attributes set on a column are kept and stored by save. read(columns) returns the columns in order or raises ValueError; persist(columns) is a catalog of exactly these columns with the current rows and the same attrs.", "quantifier": "for all numbers of ranks, data on each rank, and sequences of writing into the arrays, replacing and deleting entries of dictionaries, assigning, deleting and reading columns, indexing accessors and setting their attributes", "why_tests_cant": "tests give every rank the same consistent data, never touch the data afterwards, and never look at attributes of columns in the saved file", "anchors": ["nbodykit/source/catalog/array.py:28", "nbodykit/base/catalog.py:36", "nbodykit/base/catalog.py:222", "nbodykit/base/catalog.py:345", "nbodykit/base/catalog.py:563", "nbodykit/base/catalog.py:705", "nbodykit/base/catalog.py:1078"]}
{"id": "C122", "title": "Mesh objects: FieldMesh, ArrayMesh, LinearMesh and their views in programs; attributes; preview", "statement": "compute() of a mesh is the field behind it with the actions applied in order, in their spaces; making meshes, views, applying functions and computing changes no existing field, mesh or attribute, so that computing again gives the same field (a FieldMesh never modifies its field). A LinearMesh has mean one, every other mode being that of the Gaussian field for the seed and switches that the returned field reports in attrs. ArrayMesh holds the array of the root with the keywords in attrs. apply accepts exactly the combinations of mode and kind that are documented. preview() shows the field of the mesh. A field reports the Nmesh it has. attrs of a view are its own. FieldMesh accepts all complex fields.", "quantifier": "for all programs made of new fields, meshes of the three classes, views, applied functions and filters, computations with and without resampling, writing into fields, assigning to attributes and writing into their arrays; for all transforms and Gaussian fields", "why_tests_cant": "tests use one mesh at a time, look at values and never at the attributes of a view after the base has been changed, and preview meshes without actions", "anchors": ["nbodykit/base/mesh.py:34", "nbodykit/base/mesh.py:118", "nbodykit/base/mesh.py:259", "nbodykit/base/mesh.py:340", "nbodykit/source/mesh/field.py:26", "nbodykit/source/mesh/array.py:32", "nbodykit/source/mesh/linear.py:65"]}
{"id": "C123", "title": "BinnedStatistic objects derived from one another do not share what a user can change", "statement": "For every program that makes BinnedStatistic objects (constructor, from_state, copy, squeeze, take/sel, indexing by names, integers, slices and lists, reindex) and changes them (writing elements of variables, mask, edges and coords, setting and renaming variables, setting and mutating attrs, appending to the summed fields): variables, mask, coords and dims of every object always have matching shapes; each derived object shows the values selected from its parent; and no change made through one object is observable in another. st[key]=vals with values of the right shape always succeeds, sets exactly that variable and adds to the mask what is not finite.", "quantifier": "all programs over any number of objects, all dims, edges, records, record layouts, indices and values, all interleavings of derivations and in-place writes", "why_tests_cant": "Sharing only shows when a write follows a particular chain of derivations, and the layout of a structured view (gaps, order) depends on the chain; tests check values of one derivation at a time.", "anchors": ["nbodykit/binned_statistic.py:142-442", "nbodykit/binned_statistic.py:553-592", "nbodykit/binned_statistic.py:664-805", "nbodykit/binned_statistic.py:843-955"]}
{"id": "C124", "title": "Downloading example data mirrors exactly the tree below the URL", "statement": "mirror(url, target) applied to a directory listing creates under target exactly the files (with their bytes) and directories that are reached by the links of the listing that lie below url, in whatever order and form (with or without trailing slash, repeated) the links appear, and changes nothing else on disk; every URL it opens begins with url and is on the same host; nothing is written outside target. available_examples() is the sorted list of the relative paths of the links below the data URL. download_example_data saves each named file under its name in the given (existing) directory or the current one, raises ValueError before opening anything if the directory does not exist and ValueError naming the available files if the server answers 404.", "quantifier": "for all servers (pages, links, errors, chunking), all site trees of any depth within the recursion limit, all iteration orders of the set of links, all initial file systems, all lists of file names", "why_tests_cant": "the behaviour depends on what a remote server sends and on the iteration order of a set; tests download a fixed file", "anchors": ["nbodykit/tutorials/wget.py:14-58", "nbodykit/tutorials/wget.py:61-126", "nbodykit/tutorials/wget.py:128-198"]}
{"id": "C125", "title": "Settings of a process: communicators, options, scheduler, logging and task managers together", "statement": "Over any client program of use_mpi, use_distributed, setup_logging, set_options (as a call, as a context, as a kept object), CurrentMPIComm.push/pop/set/enter, TaskManager creation/with/is_worker, branches, loops and try/except: (1) use_mpi(comm) sets the scheduler to synchronous, the current communicator to comm (COMM_WORLD by default) and the chunk size to 102400, use_distributed(client) sets distributed, COMM_SELF, 2097152 and the pickling of communicators, each leaving everything else; (2) a pickled communicator unpickles to itself, and of the usable ones exactly COMM_SELF and COMM_WORLD can be pickled; (3) setup_logging adds at most one handler over the whole program, and none before its first call; (4) at every moment the known option names are the initial ones and the cache limit is the option global_cache_size; (5) for code that opens scopes in a nested way and catches exceptions only outside of them, `with enter(c)` and `with tm` give back the stack of communicators, no communicator on the stack is ever a freed one, and `with tm` left normally has freed its own communicator; (6) an exception inside `with tm` ends the process whatever handlers surround it; (7) is_worker is, from the first entry on, what the split of the ranks says.", "quantifier": "for all client programs, all sizes and ranks, all pre-existing communicators", "why_tests_cant": "the claims are about every program built from these calls, with any nesting, loops and exceptions; a test runs a few of them, and inside one MPI job", "anchors": ["nbodykit/__init__.py:21-105", "nbodykit/__init__.py:107-300", "nbodykit/batch.py:84-170", "nbodykit/batch.py:348-370"]}
{"id": "C126", "title": "use_distributed called by several clients of one scheduler", "statement": "For any number of clients calling use_distributed at the same time on one scheduler, workers joining at any time, waits for the lock that give up after three seconds, and clients that disappear, in every interleaving of the requests: the setup callback is registered at most once and run at most once on every worker, the same number of times on all. If no client disappears: there is no deadlock (some client can always go on, not only by giving up), each client makes at most five requests, and once all have returned the callback is registered exactly once, every worker has run it exactly once, and the lock is free. If moreover nobody waits longer than three seconds, then already when one call returns all workers are set up, and no client sees the KeyError of publish_dataset.", "quantifier": "for all numbers of clients and workers, all interleavings", "why_tests_cant": "the races between list_datasets, publish_dataset, register_worker_callbacks and the lock depend on the interleaving of several processes; no test has a scheduler with several clients", "anchors": ["nbodykit/__init__.py:52-91"]}
{"id": "C127", "title": "CatalogMesh objects: columns, settings and views in programs", "statement": "cat.to_mesh(...) is refused exactly when a named column is missing, the window is unknown or there is no valid box or mesh in the keywords or attributes. The mesh holds the columns of that moment and a copy of the attributes of the catalog overwritten by BoxSize, Nmesh, interlaced, compensated and resampler. mesh.compute() is the mass of the selected objects in each cell over the mean weight, painted with the window and interlacing the mesh has now, then compensated for the same window and interlacing if compensated is set, then changed by the actions. Nothing done to the catalog, to other meshes, to views or to arrays in attributes changes what a mesh or its views compute; only assignments to its own columns and settings do. Every object is painted whatever the size of a chunk; columns of another length are refused.", "quantifier": "all catalogs, windows, selections, weights, chunk sizes, and all programs that make catalogs, meshes, views and fields and assign to columns, settings and attributes in any order", "why_tests_cant": "Tests make one mesh from one catalog and compute it at once. They do not change the settings after a view was made, do not mix changes of the catalog with computing, and do not use columns longer than the catalog, where the result depends on the chunk size.", "anchors": ["nbodykit/source/mesh/catalog.py:60-148", "nbodykit/source/mesh/catalog.py:150-451", "nbodykit/base/catalog.py:787-873", "nbodykit/base/mesh.py:34-338"]}
{"id": "C128", "title": "Programs with many CatalogSource objects: views, copies, slices, selections and attributes", "statement": "In any program that creates catalogs, makes views, copies, slices and selections of them, assigns and deletes columns, writes into its own arrays and sets attributes, in any order: a column of a catalog is what was last assigned through the catalog or any of its views (or the column of its class after a deletion), and nothing done to another catalog changes it; views of one catalog always show the same columns and sizes; every column has as many rows as the catalog; a slice holds the indexed rows of every column that is not default, a copy and a selection hold the columns themselves, and all of them follow later writes into the caller's arrays; which catalogs share attributes is settled when the later one is made, and an entry is seen exactly by those that share; csize is the sum of size over the ranks for every catalog, however it was made.", "quantifier": "all programs, all classes with any hard-coded and default columns, all contents of arrays, all indices, all numbers of ranks with any per-rank arguments", "why_tests_cant": "tests make one or two derived objects and compare columns once; the claim is about aliasing between any number of objects after any sequence of operations", "anchors": ["nbodykit/base/catalog.py:188-545", "nbodykit/base/catalog.py:705-752", "nbodykit/base/catalog.py:905-1011"]}
{"id": "C129", "title": "LinearNbody: modes are integrated one by one, momenta differences are conserved, seeds follow the equations of continuity", "statement": "LinearNbody.integrate returns, for every requested scale factor, the displacements and momenta of the solution of the vector equation that it hands to the solver, in the rows of the wavenumbers; the vector solves that equation exactly if every mode solves the equations of its own wavenumber; without sound speed the difference of the momenta of two species is constant and species that start together stay together. seed_from_synchronous uses the synchronous gauge whatever the gauge of the cosmology, and its momenta are a^2 E dq/dlna of the displacements that obey the equations of continuity.", "quantifier": "all backgrounds, numbers of modes, initial arrays, scale factors, solutions and transfer tables", "why_tests_cant": "the test integrates one cosmology at two scale factors with a tolerance; row mix-ups that keep the sum, conservation laws and the momenta of baryons with velocity need all inputs", "anchors": ["nbodykit/cosmology/linearnbody.py:31-115", "nbodykit/cosmology/linearnbody.py:117-145", "nbodykit/cosmology/linearnbody.py:148-197"]}
{"id": "C130", "title": "Velocity dispersion and Zel'dovich power are the integrals of their docstrings", "statement": "LinearPower.velocity_dispersion(kmin, kmax) is the root of a third of the integral of P(q)/q^2 over the wave vectors with length between kmin and kmax, divided by (2 pi)^3. The transforms ZeldovichJ0, ZeldovichJ1 and ZeldovichPowerIntegral are the integrals of their docstrings, and ZeldovichPower._setup stores the X, Y and sigma_v^2 of its docstring. The sum over orders 0..nmax in ZeldovichPower.__call__ converges, as nmax grows, to the Zel'dovich power (the integral over separation and angle of cos(k r mu) (exp(-k^2 (X + Y mu^2)/2) - exp(-k^2 sigma^2))); below k = 5e-3 the result differs from exp(-k^2 sigma^2) P_L + Q_3/2 by at most (k^2 sigma^2)^3/6 P_L. Arrays give the values of their elements.", "quantifier": "all power spectra, ranges of wavenumbers and separations, orders, wavenumbers and arrays", "why_tests_cant": "tests compare with tabulated values at a tolerance for one cosmology; a wrong constant factor, order or integration range for other spectra, and convergence in the order, need statements about all functions", "anchors": ["nbodykit/cosmology/power/linear.py:158-182", "nbodykit/cosmology/power/zeldovich.py:12-26", "nbodykit/cosmology/power/zeldovich.py:83-109", "nbodykit/cosmology/power/zeldovich.py:137-192", "nbodykit/cosmology/power/zeldovich.py:194-249"]}
{"id": "C131", "title": "MPIRandomState objects: programs of calls, errors, argument shapes, choices", "statement": "Two MPIRandomState objects with the same seed, chunk size and total size, on any numbers of ranks and with any division of the items, give the same numbers in every call of a program of poisson, choice, normal and uniform calls with the same arguments of all ranks together. Call number k uses places k*nchunks to (k+1)*nchunks of the stream of seeds, whether earlier calls raised or not, so that no seed is used twice. Arguments that are scalars, one item, or one value per item give the rows meant. A rank raises exactly if the sampler raises on one of the chunks that it computes, and choice(replace=False) never repeats an element within a chunk. A draw with weights and without replacement has no index twice and none without weight.", "quantifier": "all samplers that draw row after row, all chunk sizes, sizes on all ranks including empty ranks, arguments of any shape and programs of any length", "why_tests_cant": "The existing tests compare one call with one total size on the ranks of the test run; the number of ranks, chunk boundaries inside ranks, empty ranks, programs with failed calls and the shapes of arguments are unbounded.", "anchors": ["nbodykit/mpirng.py:21-39", "nbodykit/mpirng.py:41-66", "nbodykit/mpirng.py:68-96", "nbodykit/mpirng.py:98-136"]}
{"id": "C132", "title": "TaskManager when a task raises, the loop is broken out of, or tasks is an iterator", "statement": "TaskManager.map returns on all ranks with the values in order exactly if the function raises on no task. Otherwise, whatever the schedule: every task is computed at most once; the values computed are those of tasks that do not raise; after at most 6 tasks + 5 groups steps nothing happens any more; then every group has either exited or stopped at a task that raises, and if fewer tasks raise than there are groups all the other tasks have been computed. The same holds for `break` inside `for task in tm.iterate(tasks)`. An iterator without length as tasks ends with an error on all ranks.", "quantifier": "all numbers of groups, lists of tasks, sets of tasks that stop their group, all interleavings, buffered and synchronous sends", "why_tests_cant": "A test with a task that raises ends the test process (os._exit), so the tests have none; the schedules and the places of the tasks that stop are unbounded.", "anchors": ["nbodykit/batch.py:173-223", "nbodykit/batch.py:225-266", "nbodykit/batch.py:268-298", "nbodykit/batch.py:300-346", "nbodykit/batch.py:348-372"]}
{"id": "C133", "title": "FFTRecon objects: construction, live catalogs, attrs and views", "statement": "FFTRecon(data, ran, Nmesh, ...) succeeds exactly when the scheme is LGS, LF2 or LRR, both sources are catalogs of one communicator with the position column, Nmesh and BoxSize are given or found in data.attrs (one number or three), and los has three numbers that are not all zero; its attrs are the parameters as given, with the mesh used and los divided by its squared length. Nothing else of the catalogs is kept: asked after any program of changes to the catalogs, the object gives the field of one constructed after them with the same mesh. Setting bias, f, R, revert_rsd_random, a valid scheme or a unit los in attrs is the same as constructing with it. Operations on other objects, other columns, BoxSize/Nmesh of the catalogs and attrs['Nmesh'/'BoxSize'] never change the field. A view gives the field of the object behind it.", "quantifier": "for all catalogs, arguments, meshes and transforms, all programs that make objects and views, set attrs, change columns and attributes of catalogs and compute fields, all distributions on ranks", "why_tests_cant": "the tests construct one object and compute it once; the claims are about every program of several objects, views and later changes", "anchors": ["nbodykit/algorithms/fftrecon.py:65-137", "nbodykit/base/mesh.py:79-92", "nbodykit/base/mesh.py:195-310", "nbodykit/base/catalog.py:373-384"]}
{"id": "C134", "title": "RedshiftHistogram objects: shared edges, runs, copies and files", "statement": "RedshiftHistogram(source, fsky, cosmo, bins=array) succeeds exactly if the named columns are there and holds the histogram, the shell volumes and the midpoints. In any program of several objects, centers, volumes and densities of an object are those of its last run; an operation is seen at an object only if it runs it, sets a key of attrs it uses, or sets an item of an edge array it uses. A second run gives what a new object made now gives. save() then load(), with anything between but a write to that file, gives an object seen as the saved one was; pickled objects are equal and share nothing.", "quantifier": "for all catalogs, edges, weights, cosmologies, all programs of construction, runs, settings of attrs, item assignments to edge arrays, column changes, copies, pickles, saves and loads", "why_tests_cant": "the tests make one histogram and save it once; sharing of arrays and dictionaries between objects and the state after failing or repeated runs need programs", "anchors": ["nbodykit/algorithms/zhist.py:42-139", "nbodykit/algorithms/zhist.py:161-208", "nbodykit/base/catalog.py:373-384"]}
{"id": "C135", "title": "Programs with catalogs of files: query_range gives rows of the file, whatever was sliced, copied or assigned before", "statement": "A FileCatalog on P ranks holds on rank r the rows r*n//P to (r+1)*n//P of its file, with the attributes of the file and, before them, those given by the user; the ranks together hold the whole file. After any sequence of opening files, writing into them, views, copies, slices, selections, assignments, deletions, attributes and queries within the file, every listed column of every catalog has as many rows as the catalog, and query_range(s, e) of any catalog of a file with its own memory gives a new catalog whose columns are those of the file, in which the ranks together hold the rows start+s to start+e of the file; assigned columns are gone, the attributes are a copy, and no other catalog changes. (The code differs in places: query_range of a slice forgets the slice; of a view it is refused although no column is attached; the start of a query of a query is not added up, so that a third query has other rows; a query that leaves the file is accepted and gives a catalog with columns shorter than its size that can neither be copied nor queried; a missing file raises on rank 0 only.)", "quantifier": "all programs of operations on catalogs of files, all files, all ranges, all numbers of ranks", "why_tests_cant": "Tests query once, on a fresh catalog, on one or a few ranks; states reached by slices, copies, views and queries of queries are not enumerated, nor all divisions of a range over ranks.", "anchors": ["nbodykit/source/catalog/file.py:40-101", "nbodykit/source/catalog/file.py:103-127", "nbodykit/io/stack.py:29-67", "nbodykit/base/catalog.py:439-527"]}
{"id": "C136", "title": "The power of particles does not depend on the ranks and is the direct sum over the particles", "statement": "FFTPower(catalog, ...) and FFTCorr(catalog, ...), auto or cross, of catalogs or fields: the object (bins, columns, multipoles, N1, N2, shotnoise) or the error is the same on any number of ranks, for any distribution of the rows, domain decomposition, paint_chunk_size and layout of the mesh. The auto power of a mode is the volume times the squared modulus of the sum over the selected particles of Weight times Value times the transform of the window, over the squared total weight; it is real and not negative in every bin. It does not change with the unit of the weights of each catalog, nor if all sources are shifted by whole cells; each particle twice leaves it and halves the shot noise; one particle has a power equal to its shot noise.", "quantifier": "all catalogs (rows, weights, values, selections), numbers of ranks, distributions, decompositions, chunk sizes, slab layouts, windows, arguments of the calls", "why_tests_cant": "Tests compare a few numbers of ranks on one catalog; the distributions, throttlings and layouts are unbounded.", "anchors": ["nbodykit/algorithms/fftpower.py:22-140", "nbodykit/algorithms/fftpower.py:229-359", "nbodykit/algorithms/fftcorr.py:100-212", "nbodykit/base/mesh.py:256-337", "nbodykit/source/mesh/catalog.py:150-402"]}
{"id": "C137", "title": "ConvolvedFFTPower of catalogs: multipoles as sums over objects, on any ranks, copies of randoms, translations", "statement": "ConvolvedFFTPower(first, poles, second, Nmesh, kmin, kmax, dk) of FKPCatalog or FKPCatalogMesh objects returns, for every multipole ell, the averages over the bins of k of norm * F1(k) * conj((2 ell+1) F2_ell(k)), where F1 and F2_ell are, up to the volume of a cell and the compensation of the window, the sums over the selected objects of data minus alpha times randoms of Weight*FKPWeight*Value times the window, the phase and the Legendre polynomial of the angle between k and the cell; alpha, data.norm and randoms.norm are sums over the selected rows. The whole object and the changes of the meshes are the same however rows and modes are distributed over any number of ranks and for any chunk size, if the box is found. The check of alpha in a cross-correlation never fires for meshes that pass is_valid_crosscorr. k copies of the randoms leave the table and the norms, and divide alpha by k; completeness weights of the randoms multiplied by a number t other than 0 leave the table, the norms and the shot noise, and divide alpha by t; FKP weights of both species multiplied by t leave the table, alpha and the shot noise and multiply the norms by t**2; number densities multiplied by t > 0 multiply the norms by t and divide the multipoles and the shot noise by t; a multipole does not depend on which others are asked for. Moving all objects together with the boxes leaves the monopole, alpha, norms, shot noise and edges. Runs that differ only in kmax have the same alpha, norms and shot noise, and the edges and columns of the smaller one are the beginning of those of the larger one. Runs that differ only in dk, one a whole multiple c of the other: every wide bin has the modes of the c narrow ones, and all other columns are their means weighted by the number of modes.", "quantifier": "all worlds (windows, phases, harmonics with the addition theorem, compensations), catalogs, distributions over ranks, meshes, boxes, columns and arguments", "why_tests_cant": "Tests compare single catalogs on one or two layouts with stored numbers; the statement is about every catalog, every number of ranks and every pair of meshes, and composes painting, transform, projection and norms.", "anchors": ["nbodykit/algorithms/convpower/fkp.py:134-280", "nbodykit/algorithms/convpower/fkp.py:408-759", "nbodykit/algorithms/convpower/catalogmesh.py:84-244", "nbodykit/algorithms/convpower/catalog.py:108-259"]}
{"id": "C138", "title": "Captured output: nothing leaks, nothing is lost, and descriptors and streams come back, for any scheduling of the forwarding threads", "statement": "Within `with captured_output(comm, root=None) as (out, err)` (any rank that is not root) everything that C functions write to file descriptors 1 and 2 and that Python prints goes to the two StringIO objects, in the order of printing, and nothing reaches the terminal, the files or the streams of blocks around it; after the block, however it ends, file descriptors, sys.stdout and sys.stderr are what they were, no pipe stays open, and out.getvalue() and err.getvalue() have what the body printed itself and not what blocks inside it printed. This holds for every interleaving of the main thread, the C library's buffers and the forwarding threads of all open blocks. A finished body is always followed by the end of the block. A failing Corrfunc function raises RuntimeError with exactly the captured texts.", "quantifier": "all executions (interleavings of the main thread, drains of C buffers and forwarding threads), nested blocks, programs, sizes of pipes and buffers, tables of descriptors", "why_tests_cant": "A test runs one schedule with little output; losing the last bytes, filling a pipe or cutting a character depends on the schedule and on the amount of output.", "anchors": ["nbodykit/utils.py:512-532", "nbodykit/extern/wurlitzer.py:48-281", "nbodykit/algorithms/pair_counters/corrfunc/base.py:182-222"]}
{"id": "C139", "title": "A catalog saved to a bigfile and loaded again is the same catalog", "statement": "CatalogSource.save followed by BigFileCatalog gives back the catalog: on any number of ranks, for any chunks written in any order, the loaded catalog has the saved columns (default columns excepted) with the same rows in the same global order, the default columns have their default rows, and the attributes are those saved up to their shape; FFTPower and FFTCorr of the loaded catalog equal those of the original. save changes only the blocks of the saved columns and the header of the one file it is given, so that in every program files and catalogs that do not read that file keep their rows. This requires that no saved column reads a block which save creates, that attributes can be stored and that the file was new: blocks are created (emptied) before lazy columns are computed.", "quantifier": "all catalogs with lazy columns over memory and files, all disks, all ranks at saving and loading, all chunk orders, all arguments, all programs of saves, loads and assignments", "why_tests_cant": "Tests save one small in-memory catalog to a fresh file on one or four ranks; they do not quantify over distributions, chunk orders, files that are already there, lazy columns over the file being written or programs.", "anchors": ["nbodykit/base/catalog.py:562-711", "nbodykit/io/bigfile.py:15-125", "nbodykit/source/catalog/file.py:15-68", "nbodykit/source/catalog/file.py:110-127"]}
{"id": "C140", "title": "SimulationBox2PCF of catalogs on any ranks: values, symmetries, units of weights", "statement": "SimulationBox2PCF of distributed catalogs gives the correlation function of all pairs of their particles: the result depends neither on the number of ranks, nor on which rank holds a particle, nor on the decomposition. It does not change if all particles of a periodic box are moved together or reflected, if particles are replaced by images in other boxes, if the weights of a catalog are all multiplied by a number, or if the two samples are exchanged. Without randoms in a periodic cube, mode '1d', it is the fraction of weighted pairs with nearest images in the shell over the fraction of the volume of the shell, less one, and never below -1 for weights that are not negative. Modes '2d' and 'projected' are likewise, with the part of the shell in the bin of mu and the volume of the ring; wp is the fraction of pairs less than pimax apart along the line of sight, over the fraction of the volume per depth, less 2 pimax, whatever the bins along the line of sight. Particles of weight zero do not count. Boxes that are not cubes and separations of more than half the box are refused.", "quantifier": "all catalogs, distributions over ranks, decompositions keeping the contract of GridND, reduction orders, edges, modes 1d/2d/projected, lines of sight, boxes and weights", "why_tests_cant": "Tests compare a few catalogs on one or two communicator sizes with Corrfunc; the independence of ranks and the symmetries hold for all particles, boxes and decompositions.", "anchors": ["nbodykit/algorithms/paircount_tpcf/tpcf.py:198-336", "nbodykit/algorithms/pair_counters/simbox.py:89-225", "nbodykit/algorithms/pair_counters/domain.py:48-133", "nbodykit/algorithms/paircount_tpcf/estimators.py:53-264"]}
{"id": "C141", "title": "SurveyData2PCF of catalogs, end to end on any ranks", "statement": "SurveyData2PCF of catalogs held by any number of ranks gives in every bin with random pairs the Landy-Szalay estimate computed from the weighted pairs of objects and randoms whose separation (or angle) lies in the bin. The result does not depend on which rank holds which object, on the order, the number of ranks, the domain factor, or on how the domain is dealt out; nor on rotations of the sky, mirrored declinations, another zero of right ascension, the unit of the weights of any catalog, or data of weight zero. The angular function depends on no redshift and no cosmology. Exchanging the two data sets with their randoms keeps corr and wp and exchanges D1R2 and D2R1. Without randoms, cosmology or bins of mu there is a ValueError; otherwise a result is made.", "quantifier": "all catalogs, distributions of objects over ranks, trees of the reduction, domain decompositions, cosmologies, weights and bins", "why_tests_cant": "the tests compare two seeds of one mock with stored files on 1 and 4 ranks; they cannot range over catalogs, domain factors, decompositions, rotations and weights", "anchors": ["nbodykit/algorithms/paircount_tpcf/tpcf.py:360-472", "nbodykit/algorithms/pair_counters/mocksurvey.py:94-190", "nbodykit/algorithms/pair_counters/domain.py:190-290", "nbodykit/algorithms/paircount_tpcf/estimators.py:142-232"]}
{"id": "C142", "title": "Reconstruction commutes with the symmetries of the box, and with units and copies", "statement": "FFTRecon of catalogs moved by a symmetry of the mesh (translations by whole cells, exchanged axes, reflections), with the line of sight along the moved axis, is the moved field of the original catalogs, on any ranks and for any chunk size. The field does not depend on the unit of length (positions, box and smoothing length in other units), nor on how many times every object of data or randoms stands in its catalog. Data without structure are not shifted: the field is then the density of the data less that of the randoms in every scheme. With a window that is not negative and adds up to 1, displacements read at the objects are between the smallest and largest of the cells.", "quantifier": "all meshes, Fourier transforms with the stated symmetries, catalogs, distributions over ranks, chunk sizes, biases, growth rates, lines of sight, smoothing kernels and schemes", "why_tests_cant": "The tests reconstruct one lognormal catalog and compare a few numbers; the symmetries range over all catalogs, meshes and parameters.", "anchors": ["nbodykit/algorithms/fftrecon.py:134-268"]}
{"id": "C143", "title": "Power and correlation of several species and of reconstructed fields", "statement": "FFTPower and FFTCorr of the mesh of a MultipleSpeciesCatalog give the same object (bins, columns, multipoles, N, shot noise) as of the mesh of one catalog with the rows of all species; neither the order of the species nor the ranks, chunk sizes and domain decompositions matter. The field of the species is the mean of the fields of the single species with their weights, and so is the cross power with any other field. The results for reconstructed fields (FFTRecon), alone or crossed with catalogs, species or fields, depend neither on ranks and chunks nor on how often every object stands in its catalog, and do not change if all sources are moved by the same whole number of cells.", "quantifier": "all catalogs, species, reconstructions, distributions over ranks, decompositions, chunk sizes, windows, compensations, modes, bins and lines of sight; auto and cross statistics", "why_tests_cant": "The tests paint one catalog of two species and compare the cells with a sum; FFTPower of a reconstruction is run once for one seed. Independence of ranks, merging of species and translations hold for all catalogs and meshes.", "anchors": ["nbodykit/source/mesh/species.py:110-182", "nbodykit/algorithms/fftrecon.py:131-268", "nbodykit/algorithms/fftpower.py:22-140", "nbodykit/base/mesh.py:256-337"]}
{"id": "C144", "title": "Symmetries, units and bounds of the three-point multipoles", "statement": "SimulationBox3PCF(...).poles and SurveyData3PCF(...).poles of a catalog: (a) weights times k give values times k**3, objects of weight zero can be left out, n copies of the catalog give n**3 times the values; (b) in a periodic box all objects may be translated, mirrored along axes, the axes exchanged, and positions, BoxSize and edges measured in another unit, without changing a value; without periodic images any similarity of space (edges scaled by its factor) changes nothing and BoxSize does not matter; (c) a survey may be rotated or mirrored on the sky, and the unit of the distances changed together with the edges; (d) every matrix is symmetric in its two bins, and if no weight is negative its diagonal is not negative, values obey zeta(b1,b2)**2 <= zeta(b1,b1)*zeta(b2,b2), and |corr_l| <= (2l+1)*corr_0. All this for any ranks, any kd-tree and any order of the rows.", "quantifier": "all catalogs with more than nine objects per rank, all multipoles and increasing edges, all ranks, translations, isometries of the sky, similarities, units and weights", "why_tests_cant": "tests compare one catalog with one stored result; invariance under every translation, rotation and layout, and inequalities between all bins and multipoles, are statements about all catalogs", "anchors": ["nbodykit/algorithms/threeptcf.py:39-150", "nbodykit/algorithms/threeptcf.py:234-252", "nbodykit/algorithms/pair_counters/domain.py:47-132"]}
{"id": "C145", "title": "FOF groups do not depend on ranks, order, origin, images, mirror images or units, and are nested", "statement": "Two calls of FOF on catalogs whose particles correspond to each other put two particles in one group exactly when the other call does, and leave the same particles without a group, if the second catalog is the first (a) on any other ranks in any order, (b) translated, (c) with particles replaced by periodic images, (d) mirrored along any axes, (e) in other units with linking length and box rescaled. The halos of such calls have the same masses in the same order and the same pairs of mass and velocity. With a longer linking length and no larger nmin, groups only merge: particles in one group stay in one group.", "quantifier": "every catalog on any ranks, every permutation of particles, translation, choice of images, mirror and factor, every linking length, box and nmin, every correct argsort and local group finder", "why_tests_cant": "tests compare one seed on one or two rank counts; symmetries are never tested and nested groups only by eye", "anchors": ["nbodykit/algorithms/fof.py:10-195", "nbodykit/algorithms/fof.py:339-533"]}
{"id": "C146", "title": "CylindricalGroups do not depend on ranks, order, origin, rotation or units", "statement": "Two calls of CylindricalGroups on catalogs whose objects correspond to each other give each object the same row of groups (cgm_type, cgm_haloid, num_cgm_sats), if the second catalog is the first (a) on any other ranks, in any order if no two objects have the same rank, (b) translated, for a fixed line of sight, (c) translated in a periodic box and wrapped back, for a fixed line of sight, (d) rotated or mirrored together with the line of sight, without periods, (e) in other units with rperp, rpar and the box rescaled.", "quantifier": "every catalog on any ranks, every permutation of objects, translation, rotation and factor, every rperp, rpar, line of sight and box, every correct sort and domain decomposition", "why_tests_cant": "tests compare one catalog with one reference implementation; symmetries and layouts are never compared", "anchors": ["nbodykit/algorithms/cgm.py:58-196", "nbodykit/algorithms/cgm.py:198-402"]}
{"id": "C147", "title": "KDDensity does not depend on ranks, order, origin, mirror images or axes, scales with the units, and only grows with more particles", "statement": "Provided the margin covers the eighth neighbour of each particle, or there is one domain: KDDensity gives each particle the inverse cube of the distance to its eighth nearest particle (itself included) in the periodic box; the density of each particle is the same on other ranks, in another order, with another margin, after translation, mirror images and exchange of axes; in other units it is divided by the cube of the factor; adding particles never lowers it; it is infinite exactly when eight particles coincide and zero exactly when there are fewer than eight.", "quantifier": "every catalog in a cubic box on any ranks, every number of domains, margin, translation and factor", "why_tests_cant": "the only test runs one seed on one and four ranks and compares no values with a direct search", "anchors": ["nbodykit/algorithms/kdtree.py:28-86"]}
{"id": "C148", "title": "Collision groups do not depend on ranks, order, rotation of the sky or units of the angles, and are nested", "statement": "Two calls of FiberCollisions on catalogs whose objects correspond to each other find the same collision groups, and the same objects outside of any group, if the second catalog is the first (a) on other ranks in any order, (b) with the same directions given by other angles, in degrees or radians, (c) rotated or mirrored on the sky. With a larger collision radius groups only merge. All positions are inside the box of side 2.2 in which friends are looked for.", "quantifier": "every catalog on any ranks with at least two objects on each, every permutation, rotation and radius, every correct sort, decomposition and local group finder", "why_tests_cant": "tests use one random catalog and compare with one implementation; no rotation is ever applied, and the radius is never varied", "anchors": ["nbodykit/algorithms/fibercollisions.py:46-142"]}
{"id": "C149", "title": "Densities of redshift histograms: weights, catalogs, sky fraction, units and merged bins", "statement": "nbar of RedshiftHistogram(source, fsky, cosmo, bins=array) does not depend on the ranks or order of the objects; weights t times as large make it t times as large; of two catalogs together it is the sum of those of the two; t times the sky fraction divides it by t; distances u times as long divide it by u^3 and multiply dV by u^3; without one inner edge the density of the merged bin is the mean of the two densities weighted by their volumes, and all other bins keep theirs; with weights not below 0 and distances that grow it is not below 0.", "quantifier": "every catalog on any ranks, sorted edges, weights, sky fractions, distance functions, every inner edge", "why_tests_cant": "tests compare one catalog with one set of edges and do not relate two calls", "anchors": ["nbodykit/algorithms/zhist.py:42-139"]}
{"id": "C150", "title": "Scott's bins: layout, shifts, units, number of bins, and no redshift lost", "statement": "scotts_bin_width succeeds exactly if every rank has a redshift. Its bins do not depend on ranks or order; for redshifts s x + t with s > 0 the width is s times as large and every edge moves likewise. Of n redshifts not all equal there are at least 2/f and fewer than sqrt(2n)/f + 1 bins, f = (24 sqrt(pi)/n)^(1/3), however they are spread. Each of rational redshifts that are not all equal is in exactly one bin of the exact rule; equal redshifts are all outside.", "quantifier": "every list of redshifts on any ranks, every shift and positive factor", "why_tests_cant": "whether the range can be a whole number of widths is a question about all catalogs; the answer needs that pi is irrational", "anchors": ["nbodykit/algorithms/zhist.py:210-253"]}
