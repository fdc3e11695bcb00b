# Formal model of nbodykit in Lean 4: design

Source: `/repo` (bccp/nbodykit, pinned commit), read as text, never run.
Model and proofs: `/verif/lean/Verif/`. Claims: `MANIFEST.json`. Property list: `properties.jsonl`.

## Layout

Every topic `T` has up to three files in `lean/Verif/T/`:

* `Model.lean`: definitions that mirror the Python functions, each with a comment citing file and lines;
* `Lemmas.lean`: helper lemmas (no claims are made about these);
* `Props.lean`: the property theorems, a small specification independent of the model's helpers, and an
  `example` beside each theorem showing that a concrete non-trivial case meets its hypotheses.

## Modelling conventions

* An MPI program is modelled *bulk synchronously*: a distributed array is a `List (List α)`, one entry per
  rank, in rank order. A collective (`allgather`, `allreduce`, `bcast`, `alltoall`, `Gatherv`, `Scatterv`,
  `exscan`) is the pure function on the list of all ranks' inputs that the MPI standard prescribes.
  Message-level non-determinism is modelled only where the code itself does point-to-point messages
  (`TaskManager`, C13).
* numpy arrays are `List`s; numpy integers are unbounded `Nat`/`Int` (no overflow); floats are exact numbers of
  an arbitrary ordered field / commutative ring, or abstract values, as said in each file.
* Python exceptions are values (`Except Err α` or `Option α`); no error branch is hidden by a default value.
* External libraries are parameters or are modelled by their documented contract (trusted base below).
* If the code violates the English property, the negation is proved with a concrete witness, and the
  part that does hold is proved under a name with the suffix `_partial`.

## Trusted base

* Lean 4.33.0 kernel, and the axioms `propext`, `Classical.choice`, `Quot.sound` only (checked with
  `#print axioms` / vcheck). No own axioms, no `sorry`, no `native_decide`/`bv_decide`.
* The reading of the Python code (cited on every definition) and of the contracts of numpy, mpi4py,
  mpsort, dask, pandas, kdcount, Corrfunc and pmesh functions used, as written in the comments.
* Corrfunc (documented counts and averages), pmesh `GridND` (which ranks receive a particle), Python's `json` (a codec of
  trees), astropy (the classes store their arguments) and CLASS (`Engine.Lawful` in topic Cosmo states what `match` needs).
* Not modelled anywhere: floating point rounding, integer overflow, memory use, timing, logging,
  MPI transport failures, FFTs, cosmology codes (CLASS), plotting, dask scheduling.

## Plan per property

| id | model | proof |
|----|-------|-------|
| C01 | `FrontPadArray` as a function on the list of all ranks' arrays: counts, offsets, clipping of `torecv`, error vote, alltoall, concatenation | the receive table selects, for each source rank, the overlap with the window `[off-front, off)`; induction over ranks |
| C02 | seeds table, first chunk / skip arithmetic, front padding of the arguments, chunk loop, dropping of `skip` values; sampler = arbitrary function with the prefix property | each rank's result is a window of one global stream; concatenation of windows |
| C03, C04 | counts/offsets buffers, Gatherv/Scatterv as copy in/out of a flat buffer | induction over ranks, flatten of pieces; arithmetic of `n//P + (r < n%P)` |
| C05 | same model with `root` explicit, branch `comm.rank == 0` as in the code | negation by witness, `_partial` for root = 0 |
| C06 | `n*(r+1)//P - n*r//P` | telescoping sum, monotone floor division |
| C07 | local `unique` inverse, heads/tails of neighbours with empty-rank skipping, exclusive sum | induction over the list of ranks with invariant on the previous non-empty rank |
| C08 | local bincount with offset, adding of neighbours' edge counts, dropping of the shared first bin | invariant over ranks; count of a label over the flattened array |
| C09 | key construction and the sort contract of mpsort | the keys are strictly increasing in the concatenated order |
| C10 | the two count-down loops with arbitrary starting values | loop invariant; counterexample for the documented order |
| C11 | chunk loop with per-chunk min/max, allreduce | fold of min/max over flattened rows; counterexample for empty chunk on a non-empty rank |
| C12 | `split_ranks` with `array_split` | list algebra |
| C13 | labelled transition system: master, workers, message queues | invariant by induction over executions, measure for termination, progress lemma |
| C14, C15 | stack machine with structured programs (with-blocks, raise) | structural induction over programs |
| C16, C17, C53 | catalog objects on a small heap (attrs shared by reference, columns per object) | operation-by-operation frame lemmas, induction over histories |
| C18, C25 | Python `slice.indices`, `range` length, the size formulas | integer arithmetic, membership in arithmetic progressions |
| C19 | mask over global index, redistribution | list filtering lemma; counterexample for negative step |
| C20 | LSD radix passes with a stable sort per key, key encoding | stable-sort composition gives lexicographic order; counterexamples |
| C21, C29 | offsets, tiling, query_range | telescoping; counterexample for repeated queries |
| C22 | per-rank concatenation of columns | permutation of rows |
| C23 | run grouping as in `itertools.groupby` | induction on the index list |
| C24 | cumulative sizes, `searchsorted`, local slices | induction over files |
| C26, C30 | byte offsets in a flat byte array | take/drop algebra |
| C27, C28 | dask's `read_block` contract, row counting by bytes | delimiter-search monotonicity, telescoping; counterexamples |
| C31 | mesh object = base + action list; painting as a fold with current space | induction over the action list |
| C32 | chunk loop against an arbitrary throttling oracle | well-founded measure, coverage invariant |
| C33, C35 | stored half `0..N/2` of `Z/N` with weights | bijection by reflection on finite sums |
| C34 | digitize by comparing with edges, bincount per slab, allreduce | partition of a finite sum |
| C36 | iterative min-exchange over copies of particles | invariants (label is an id in the component, group-constant, decreasing), termination measure, fixpoint = components |
| C37 | bincount, threshold, argsort, relabel | list lemmas; counterexample at size = nmin |
| C38, C39 | argsort + reduceat; searchsorted + match | list induction |
| C40 | per-rank resolution + root resolution of "maybes" | strong induction on rank order: equals greedy |
| C41, C42 | removal loop with arbitrary choices | invariant; counterexample for maximality |
| C43-C47 | dataset record with edges, data, mask, fields_to_sum; heap cell for the mutable default | list lemmas; counterexamples |
| C48, C49 | pair-weighted addition over a field | totals are additive; sum over pairs identity |
| C50 | searchsorted/bincount | counting lemma |
| C51 | JSON value trees | structural induction; counterexample for empty arrays |
| C52 | sum of species fields | finite-sum algebra |
| C54, C55 | `count`, `centerofmass` and peak selection of FOF groups over all ranks (topic Fof) | sums over flattened arrays, maximum of a group |
| C56-C58 | edges of re-binned dimensions, `average`, coordinates of selections (topic Binned) | list arithmetic; counterexamples |
| C59-C62 | estimators as functions of pair counts (topic Estim, uses Pairs and Binned) | field arithmetic, telescoping of volumes; the angular cap over the reals |
| C63 | Scott bins with the width as a parameter | floor/ceil arithmetic; counterexamples |
| C64, C65 | dictionaries as partial functions, every step of `compile_args` | pointwise characterisation of `compile_args`, frame lemmas, finite tables by `decide` |
| C66 | `match` over an abstract CLASS with stated laws | from C65 |
| C67 | `to_astropy`, `astropy_to_dict` on records | case analysis, sorting |
| C68 | `FKPWeightFromNbar`, `FKPCatalog.__init__` on rows with columns as fields | field inequalities, case analysis |
| C69 | `_define_bbox` on top of the model of `get_data_bounds` (C11) | extrema of C11, ceiling bounds |
| C70 | `to_real_field` cell by cell, window shares a parameter, values that are not finite as `none` | exchange of sums over cells and objects, permutation and replication of lists |
| C71 | `normalization`, `shotnoise` with the cache in `attrs`, the check of 5% | rewriting to the documented sums; changes of units as maps of rows |
| C72 | `is_valid_crosscorr`, joint box, `recenter_box` with the unchanged `pm` | case analysis, witnesses |
| C73 | `_compute_multipoles` with a heap of work arrays and references, aliases of auto-correlations, slab loops | invariant of the loop over multipoles: the work arrays hold what they should, then algebra of sums |
| C74 | `to_pkmu` over rationals, Legendre polynomials as lists of coefficients, `quad` as exact integral | two derivative relations of Legendre polynomials by induction, antiderivatives unique up to a constant, telescoping |
| C75 | `work_with` with its chunks, `_helper_paint` with the three schemes | chunks cover every rank, exchange of sums; shares add up to 1 |
| C76 | kernel of one mode, `solve_displacement`, factor `1 + f los`, normalisation of `los` | algebra; unit vectors as witnesses characterise the directions that work |
| C77 | a mode of `gaussian_complex_fields` | algebra |
| C78 | `poisson_sample_to_points` on all ranks over the collective generator of C02; `mpsort` as two orders that sort | sorted permutations are unique, items of one cell are equal; windows of distributed arrays |
| C79 | seeds and sizes on every rank, broadcast, generators seeded by the system | rewriting; witnesses for the seedless case |
| C80 | bunches of neighbours, dictionaries of harmonics, outer products, ranks, over any ordered field | induction over bunches and ranks, addition theorem as hypothesis |
| C81 | power objects as records with the redshifts of their transfer objects, histories of assignments | induction over the history |
| C82 | `__call__` of linear, Halofit and transfer objects; CLASS, roots and powers as parameters with laws | field algebra; witnesses for integers and 0 |
| C83 | `Growth/Model.lean`: grid, interpolation, normalisation over an ordered field with the solution as a parameter; equations over the reals | membership of the requested steps in the sorted grid, interpolation at nodes; `HasDerivAt` for the equations |
| C84 | `Populate/Model.lean`: model instance with parameters and mock, catalog with rows, columns, attrs; halotools is a function | invariant over histories of `repopulate`; list induction for the enumeration of types |
| C85 | `Kd/Model.lean`: k-th smallest distance in the received particles, minimum over ranks; decomposition of `Pairs` | k-th smallest characterised by counts; completeness of the grid decomposition |
| C86 | `SubVol/Model.lean`: columns exchanged one by one with the destinations of the positions | columns as fields of rows; buckets are a permutation |
| C87 | Comp: windows, kernels as functions of a real frequency, choice of the kernel, actions | explicit integrals of cubic times cosine; mean over the offset of the power of one painted particle, by the finite sum over mesh points |
| C88 | Uedges: keys, unique values per rank and after the gather, edges; root and floor as parameters | a list sorted by key with distinct keys; separation of values makes keys injective; bins of increasing edges are disjoint |
| C89 | Corr: mesh as finite abelian group, modes as characters, slabs with in-place products, bins by Project | orthogonality of characters; invariant of the fold over slabs; binning from C34 |
| C90 | ProjPower: sums over the projected axes, rfftn as half of the plane, weights of Hermitian, digitize and bincount over reals | symmetry of coefficients and |k| under change of sign, then the half-plane sum of C35; symmetries from coefficients of moved, mirrored and scaled fields, sums of phases; wider bins by induction on the number of narrow bins merged |
| C91 | Attrs: dictionaries, flat arrays and texts on disk, JSON by the codec of Json, headers, loops of save and load | induction over the loops with the lookup of every key; JSON by C51; negations for numbers, matrices, marked texts, existing files |
| C92 | MeshFile: cells with values per rank, ravel as global sort cut in pieces, file, reads of consecutive ranges, unravel; shapes of ArrayMesh | sorted cells are the range; pieces and ranges tile; permutation of cells and values |
| C93 | Sky: vectors of reals, arctan2 as complex argument, linear interpolation on a grid of redshifts, any increasing distance | polar form of complex numbers; induction on the grid |
| C94 | Columns: lists with broadcasting of single items, transpose; vectors Fin D to reals; shapes with numpy broadcasting | induction on the columns; sums over components |
| C95 | Hdf: files as lists of objects with paths of names, exclusion by strings, columns, attributes, reading by joined path | induction over the objects and over paths; strings of paths begin alike iff names do |
| C96 | Slabs: numpy arrays as shapes and items, take, broadcasting; slabs along any axis | inversion of the checks; case analysis over dimensions and axes; Cauchy-Schwarz |
| C97 | Filters: factor of one mode over the reals, 0/0 as none | fundamental theorem of calculus, bounds of sine under the integral |
| C98 | Ehu: every coefficient and both formulas over the reals | limits by continuity and squeezing; monotonicity by comparing logarithms; equality with the published formulas apart from beta_c; negation for beta_c |
| C99 | SurvPairs: sky to Cartesian coordinates, grid edges, ghosts, smoothing, the Corrfunc bins as functions of two positions | every counted pair has a Cartesian separation of at most the smoothing (chord of an angle, half-sum for projected), so the owner of one is among the ghosts of the other; then the theorem on sums over ranks of `Pairs` |
| C100 | BoxPairs: los parsing with Python's substring test, axes order, BoxSize checks, shift, columns of the catalog, sky coordinates | case analysis; the angle between sky coordinates is that between positions (C93), then C99; negations by witnesses |
| C101 | Ylm: Legendre polynomials by sympy's recurrence, their derivatives, amplitudes, real and complex harmonics of a unit vector, directions of cells and modes | recurrences of the derivatives by induction; the addition theorem by two-step induction on the degree, comparing the coefficients of cos(m phi); then instantiation of C73 and C80 |
| C102 | `Multipoles.toPoles` over the reals with the Legendre polynomials of C101 | orthogonality of the Legendre polynomials from their differential equation; bound on their derivative from the addition theorem; error of the midpoint by induction over the bins |
| C103 | `Xi.World`, `Xi.run`, `Xi.call` on top of `Power` | induction over the history, refinement to `Power.run`; the transform is any homogeneous one |
| C104 | `Xi.FNL` on top of `Power` | algebra over the reals; scaling of the linear power with sigma8 and the growth factor |
| C105 | `SelCoord`: `sel`, `_get_index`, `squeeze()`, `rename_variable` on the objects of `Binned` | the bins asked for are characterised by `Match`/`Asks` on the coordinates; reduction to `take_partial` and `squeezeAll`; success characterised by `SelArgs` |
| C106 | `TaskMgr`: `__enter__` per rank; transition system with one process per rank, broadcasts and barriers | communicators from the colors; simulation of the group-level system of C13 (`mstep_abs`, `mrun_abs`), invariant `GInv` on where the ranks of a group can be, potential for termination |
| C107 | `Verif/FftObj`: casting, bins, tables, datasets, save and load on top of Project, Uedges and Binned | case analysis of the run, bins partition the modes, induction over bins; a wide bin is the disjoint union of narrow ones (`wide_bins`, `wide_mu`, `wide_poles`); edges up to a smaller kmax are a prefix (`kmax_cuts`) |
| C108 | `Verif/PcfObj/Model.lean`: pair count objects and 2PCF objects over `Verif.Binned`, counts and randoms as parameters, both estimators, wp, get/set state | `Verif/PcfObj/Props.lean`: bins of the run = bins of the state by mode; LS and natural values from `Verif.Estim`; round trip up to metadata, negations for metadata, sums and given random pairs |
| C109 | `Verif/ConvObj`: mesh objects in a heap, casting, checks, joint box, bins, attributes, table, save/load, on top of `Convpower`, `Fkp`, `FftObj`, `Binned` | cases of the casts; the multipoles from C73; frame and idempotence theorems for the heap; negation by witness for the dependence on earlier calls |
| C110 | FofObj/Model on top of Fof and Gather | labels from the components theorem and the label assignment; groups of the zipped columns; count and centre of mass of each label; scattering; halos by filtering out the empty row |
| C111 | `Verif/FiberObj`: `FiberCollisions.__init__` and `run` on top of the models of the unit sphere (C93), `fof` (C36, C37) and `_assign_fibers` (C41) | `fibers_partial` (all of the statement for groups of linked objects), `near_small` (what links objects below 0.2 rad), `pair_collides`; negations `chord_not_angle`, `antipodes`, `single_fails`, `empty_fails` |
| C112 | `Verif/CgmObj`: `CylindricalGroups.__init__`, `run` and the cuts of `callback` on top of the models of `cgm` (C40) and `sort` (C20) | `valid_iff` (the cuts are the cylinder), `sorted_spec`, `groups_partial` (the whole statement for the catalog), `rejects`, `source_box`; negations `hard_origind_fails`, `empty_rank_fails`, `origin_lost`, `grid_wrong`, `last_wins`, `no_box` |
| C113 | `FileObj`: data types with names, shapes and sizes; objects with their memory owner, columns and second axis; `__getitem__` for names and tuples, `asarray`, `get_dask` with chunked computation; constructors of binary, TPM, FITS files and stacks; row indices are those of C23/C25 | selections compose (`select_select`), reading any object is `viewRows` of the rows of the owner (`getitem_view`); picking commutes with maps; chunks tile; the constructors meet the contract `Good` of `read` (`binary_opens`, `stack_opens`); counterexamples for matrices, aligned types, mixed stacks, image extensions |
| C114 | `CsvObj`: keywords, `verify_data` on the first rows, types, blocks to typed columns, the view of a column | `open_iff` characterises acceptance, `open_errors` the exceptions, `open_types` the types; `column_partial` through `Csv.csv_sizes_partial`, `FileIO.stack_reads` and `FileObj.Picks`; `misfit_fails` for the rows that are not inspected; witnesses for the findings |
| C115 | `Plain`: the readers on lists of characters: splitting into words, the loop over the lines with its position and dictionary of metadata, assembly of columns, reshaping, the call of `__init__`; `float`, `int`, builtins and numpy as parameters | Induction over the rows, the metadata lines and the columns for any printer that `float` and `int` undo; progress of the loop if no count is negative; a loop invariant for the file that is read forever; `decide` on concrete files for the rest |
| C116 | `SpecObj/Model.lean`: `multi`, `species`, `source`, `columns`, `getitem`, `checkMeta`, `toMesh`, `meshItem`; lists of names live in a store because they are kept by reference | exact conditions for the constructor and `to_mesh`; lookup theorems for attributes with names without dots; the mesh item field by field; negations by concrete catalogs |
| C117 | `LogObj/Model.lean`: `new`, `makeSource`, `attrsOf` over the sampling of `Mock/Model.lean` and the seeds of `Seeds/Model.lean`; `modRounded` for the remainder in finite precision | from the theorems on the sampling (C78) and seeds (C79); images unique; negations with a concrete catalog and for every rounding |
| C118 | `TpcfObj`: `verifyBox`, `decomposeBox`, `decomposeSky`, `runBox`, `simBox`, `survey`; `YlmCache` as `gathered`, `fill`, `evalExpr`, `call`; `save`/`load` over `Json` | the rank of a primary gets every secondary with an image within `rmax` (cells and floors), so the bunches are complete (C80) and the addition theorem (C101) gives the triangles; partition of the primaries; pigeonhole for the load; permutation of the strided shares; invariant of the filled cache |
| C119 | `CosmoObj`: `delegate`, `dunder`, `getattr`, `setattr`, `dirOf`, `setState`, `fromDict`, `asDict`, `shallow`, `pickled`, `clone`, `fromFile`, `deprecated`, `compile`, `new`, `fromAstropy`; dictionaries by reference in a `Heap` | invariant `Sound` (table of delegates made of one engine), steps that only depend on the attributes (`Steady`) give independence of history; refinement of `compile` to `Cosmo.init` (C64) for keywords; frame of the heap |
| C120 | `HaloObj/Model.lean`: the catalog as an object that reads its source when a column is read, operations on both catalogs, subsets, the keywords of the halotools catalog, the keywords of the halotools models, the demo catalog | a state theorem for any list of operations; the table key by key (no mass definition can collide with another key); keywords of the models; negations for the concentration key, instances of model classes and a changed mass definition |
| C121 | `ArrObj` — the constructor on all ranks with outcomes done / raised / stuck, memory of arrays and dictionaries held by reference, a state machine of columns and accessors | the constructor is characterised by an iff; induction over operations |
| C122 | `MeshObj` — fields, meshes and arrays of attributes as objects held by reference, programs of twelve operations | well-formedness and agreement of views by induction over programs; the field behind a mesh as an inductive relation |
| C123 | `StatObj`: heap of array memory, lists and attribute values; objects as views (memory, positions, fields with places); every constructor and method as a step | invariant of every world (shapes agree, views inside their memory) by case analysis on the step and induction on the program; a second invariant (no memory of records or masks shared) for programs without views; write-through for slices and selections of variables in general; negations by witness programs |
| C124 | Wget: URLs as character lists, server as a function from URLs to pages, file system as a function from normal paths to nodes, recursion limit as fuel | induction on the depth of the tree with an invariant of the loop over the links (between the files before and the plan); prefix invariants for opened URLs and written paths |
| C125 | `Verif/Setup/Model.lean`: all settings as one state, client code with big-step semantics, managers with the split of `Verif.TaskMgr` | `Props` (effects, invariants over executions), `ScopeProps` (stack discipline, freed communicators, is_worker), `CaseProps` (programs at the limits) |
| C126 | `Verif/Setup/Cluster.lean`: scheduler, clients and workers as a transition system | `ClusterProps`: invariants by induction over schedules, a measure for termination, negations by schedules |
| C127 | CatMesh: catalogs, `CatalogMesh` objects, views, fields and values of attributes in a world; painting by chunks is a sum over selected rows; settings are read from `attrs`; `compute` as in mesh.py | meaning of `compute` through the root of a chain of views; the rows of all chunks are the selected objects (iff on the lengths); effects of each operation classified, then induction over programs: what is kept, order of views, existence of references; cases for what views and attributes do |
| C128 | `CatObj`: a world with the arrays of the caller, the objects (class, columns set, base, reference to attributes) and the dictionaries; lazy columns as trees; the same program on many ranks with `allreduce` of the sizes | effect of each operation on every object, then induction over programs; invariants for the lengths, the references and the sums |
| C129 | `Nbody`: vectors as lists, modes with the right hand side of `Growth`, the solver as a parameter, transfer tables per gauge | list algebra for reshape and transpose; derivatives per component; a function with zero derivative is constant |
| C130 | `Zel`: real functions, `quad` and `mcfit` as the integrals that they approximate, spherical Bessel functions by recurrence | Poisson's integral by parts and induction; polar coordinates in three dimensions; dominated convergence of the sum over orders; Taylor bounds |
| C131 | RngObj: objects on all ranks, arguments with shapes, seeds drawn, loop over chunks with errors, numpy's weighted choice | values of the windows of the ranks from the prefix contract of the samplers; induction on the program; pigeonhole; the cumulative weights are monotone, so a draw falls in the share of an index with weight (`searchRight_spec`, `weighted_spec`) |
| C132 | TaskStop: the protocol of Batch with groups that stay at a task, and with a root that has raised | invariants of Batch, results are of tasks that do not stop, weight, counting of stopped groups |
| C133 | `ReconObj/Model.lean`: constructor with its checks in order, `attrs`, views, programs over catalogs and objects; the field is that of `Recon` with the `attrs` of the moment | exact conditions and attributes of the constructor; objects made again are equal; isolation and liveness by induction over programs; negations: `los` set later is not normalised, a bias of zero and an unknown scheme are noticed late, views report `attrs` that are not those of the field |
| C134 | `ZhistObj/Model.lean`: objects, arrays of edges and `attrs` dictionaries with addresses, files; histogram of `Zhist` | frame lemmas per operation, then induction over programs; save/load and pickle by the contents of new arrays; negations: lists of edges and integers never work, edges given by the user stay shared, a failing run leaves a mixture, restored objects cannot run and pickled ones cannot be saved, copies share `attrs` |
| C135 | `FileCatObj`: the objects of `CatObj` with the class of catalogs of a file; ranges, query_range, opening on ranks | invariant over programs (`Inv`: sized columns, arrays of the length of the file, ranges of views); shape of the object that a query makes; concatenation over ranks by pieces; negations by cases |
| C136 | `Verif/Pipe`: painting (C32), transform, 3D power, projection (C34) and the objects (C107) one after the other, on any layout of ranks | exchange of the sums over cells and particles; relations between fields lifted to whole results; permutations |
| C137 | `Survey.World`, `Machine`, `meshOf`, `pairOf`, `metaOf`, `fieldOf`, `convOf`, `envOf`, `bboxOf`, `call`: the stages of C69, C70, C109 one after the other, from the rows on the ranks to the table | the layout enters only through sums and membership; the transform of a sum is the sum of transforms; addition theorem; units of the three columns of weights: every sum over rows is multiplied by one number; bins as in C107 (`kmax_cuts`, `wide_bins`); negations: `ranks_fail`, `weightless_randoms` |
| C138 | `Capture.St`, `Ev`, `step`, `run`, `setup`, `restore`, `threadStep`, `result`: a transition system of the main thread, the C library and the forwarding threads over a table of descriptors | invariant over all executions (`inv_step`); `block` from the invariant and uniqueness of the table; bounded turns for `block_ends`; negations: `can_hang`, `never_left`, `call_never_ends`, `setup_leaves_stdout`, `unbound_out`, `message_depends` |
| C139 | `SaveObj`: columns as lazy expressions over memory and blocks of files; `save` creates all blocks, stores the header, writes chunks of all ranks in any order; `BigFileCatalog` lists blocks, reads headers, splits rows over ranks; programs of saves, loads, assignments | invariant over the chunks written (`writeAll_spec`), frame lemmas for blocks that are read, index arithmetic of ranks; `round_trip_partial`, `power_partial` through `Pipe.call_ranks_partial`; negations `own_file`, `load_then_save`, `bad_attr`, `other_size`, `other_header`, `hidden`, `datasets_default` |
| C140 | `BoxTpcf`: catalogs of particles on ranks, checks, decomposition, Corrfunc's bins, `PcfObj` on the counts | counts are those of all pairs (from `Pairs.pairCount_full`), so the whole object is invariant under maps of particles that keep bins, separations and weights; value from `PcfObj.natural_1d`; for '2d', 'projected' and `wp` from the filling factors of the bins and a telescoping sum of rings; the mean over `mu` from a telescoping sum of wedges |
| C141 | `SurvTpcf.Model` on `SurvPairs` and `PcfObj`: `tpcf` counts the survey pairs of the catalogs on their ranks | the counts are those of the concatenated objects (`count_eq`), then exchange of objects, scalar products, scaled weights and evaluation of the estimator bin by bin, also of the mode 'projected' and of its `wp` |
| C142 | `Recon.Model`; `Sym` collects what a symmetry does to positions, cells and modes | the kernel of a moved mode is the moved kernel (`kernel_moved`), hence displacements and painted fields (`psi_moved`, `recon_map`); densities of copies and of scaled positions are the same; values read are convex combinations of those of the cells (`solve_between`) |
| C143 | `MeshPower.Model`: sources are contents of `Pipe`, species of `SpeciesMesh` or reconstructions of `Recon` | fields of related sources are related (`merged_field`, `recon_same`, `recon_shifted`), hence so are the results (`call_related`) |
| C144 | TpcfObj (objects of the three-point function on any ranks) | relations of two calls through the sums over triangles; Legendre polynomials as Gram matrices of the harmonics (addition theorem) for the bounds; mirrored objects half a box apart as negation |
| C145 | `FofObj` | Friendship is carried by the permutation of particles; components, their sizes and the sorted list of groups are carried with it; masses are equal as sorted lists that are permutations of each other; nesting by monotonicity of the equivalence closure |
| C146 | `CgmObj` | Centrals are determined by ranking and cylinders, by induction on the rank; hosts, counts and numbers of groups are carried by the permutation; cylinders are carried by each symmetry |
| C147 | `Kd` | The run equals a function of the multiset of separations; isometries of the circle through the least image; counting within a distance is monotone |
| C148 | `FiberObj` | Links are carried by the permutation; for radii below 0.2 radians links are determined by the separation on the sky; equivalence closures are monotone |
| C149 | `ZhistObj`, `Zhist` | Every bin is a sum over all objects divided by a volume; identities of such sums |
| C150 | `Zhist.Scott`, with real roots and pi | Bounds of the variance by the range; the sixth power of the width is a rational number times pi |

## Wrong programs

`seeded/LOG.jsonl` has one line per edited definition. "failed" lists the theorems that were not proved any more after the edit. The script that wrote it did not tell an
edit that makes a theorem false from one that is no valid Lean at all, or a proof that is merely written for the old text. A later check of 1056 of the about 3000 edits for
the first found 4 whose definition does not elaborate; they carry a "note" and are no evidence. The other edits have not been checked in this way.

## Findings

Where code and property disagree. Each item names the theorem with the witness (namespace `NBK.`); items marked
(read) were seen in the source and are not stated as a theorem.

### Distributed utilities
* C05 `GatherArray`/`ScatterArray` with `root != 0`: the shape and dtype checks are done by rank 0, and `Scatterv` uses
  the counts of rank 0 (`Gather.gather_mismatch_not_rejected`, `Gather.scatter_other_root_fails`).
* C10 `split_size_3d` does not return `a <= b <= c` (`Bounds.splitSize3d_not_sorted`).
* C11 `get_data_bounds` raises if a rank with rows has a chunk without selected rows (`Bounds.getDataBounds_fails`).
* C12 `split_ranks` on a single rank with `include_all` yields an empty group (`Batch.splitRanks_single`).
* C15 `CurrentMPIComm.enter` has no try/finally: an exception leaves the communicator changed
  (`Options.enter_error_not_restored`, `Options.enter_wrong_comm`).

### Catalogs and files
* C17 slices share the `attrs` dictionary, views write through, `copy()` raises AttributeError if `attrs` was never touched
  (`Catalog.slice_attrs_shared`, `Catalog.view_writes_through`, `Catalog.copy_fails_without_attrs`).
* C19 `gslice` with a negative step returns the rows in the opposite order (`Slicing.gslice_negative_wrong`).
* C20 `sort(reverse=True)` is ignored for integers; negative floats are ordered by their bit pattern
  (`Sort.sort_reverse_int_wrong`, `Sort.sort_negative_floats_wrong`).
* C23 empty selections raise; negative integers of another dtype than int64 are not wrapped
  (`FileIO.mask_all_false_raises`, `FileIO.negative_int32_wrong`). (read) The array of the caller is modified in place.
* C25 `f[a:b]` with `a > b` raises; `f[::-1]` of the last column of a binary file returns the last item in every row
  (`FileIO.binary_empty_slice_raises`, `FileIO.binary_reverse_wrong`).
* C28 sizes of CSV files are wrong with blank lines, `nrows`, `skiprows` (`Csv.csv_*_wrong`, `Csv.csv_phantom_row`).
* C29 repeated `query_range` is relative to the previous one, and drops assigned columns
  (`FileCat.query_repeated_witness`, `FileCat.query_drops_assigned`).
* C30 (read) a given precision is not checked, the warning says 4 bytes while 8 are used.
* C53 names with a slash and scalar columns (see the notes of the claim).

### Meshes and statistics
* C32 (read) `paint_chunk_size=0` loops forever.
* C34 mu above the last edge is kept in the last bin; `FFTCorr` uses mu edges from 0 to 1 on the full mesh, negative mu are
  dropped (`Project.mu_above_kept`, `Project.fftcorr_drops_negative_mu`).
* C35 odd mesh sizes: the projected power undercounts (`Hermitian.proj_odd_wrong`).
* C50, C63 `RedshiftHistogram(bins=int)` always raises NameError; objects at the last edge are dropped; the default bins lose
  the largest redshift on exact division, all objects of equal redshift, and raise on an empty rank (`Zhist.int_bins_fail`,
  `Zhist.last_edge_dropped`, `Zhist.scott_max_dropped`, `Zhist.scott_equal_dropped`, `Zhist.scott_empty_rank`). (read) edges
  given as a Python list fail with TypeError.
* C52 the shot noise is NaN if one species has no weight (`SpeciesMesh.shotnoise_nan`).
* C43-C47, C56-C58 `BinnedStatistic`: `fields_to_sum` is lost on save and load, metadata named like a parameter breaks
  `from_json`, upper edges of non-consecutive selections are wrong, negative list indices and reversed slices give wrong
  edges, weights of invalid bins enter the denominator, averaged integers are truncated, the default list is shared between
  calls and the argument of the caller is changed, masks are stale after overwriting, uneven bins are accepted
  (compared with themselves), `average` drops bins and fails for a single bin or dimension, coordinates are replaced by
  centers (`Binned.roundtrip_sums`, `json_attr_error`, `take_edges_wrong`, `getitem_negative`, `getitem_reversed`,
  `reindex_weights_nan`, `reindex_truncates`, `reindex_history`, `reindex_argument`, `setitem_mask`, `getVars_mask`,
  `reindex_uneven`, `average_uneven`, `average_single`, `average_1d`, `getVars_coords`). (read) `return_spacing` returns the
  requested spacing; `sel(slice(None, x))` raises; an integer and a list separated by a slice scramble the data.

### Groups and fibers
* C37 groups of exactly `nmin` members are dropped; an empty rank raises (`Fof.assignLabels_drops_nmin`,
  `Fof.assignLabels_empty_rank`). (read) `max_label` is a list although documented as an integer; `fof_find_peaks` returns an
  undefined name.
* C38 the default `argsort` is not stable, so the original order within a group may be lost (`Fof.equivClass_order_lost`).
* C40 (see the theorems of topic Cgm) an object at the origin gets label -1, an empty rank fails; (read) the grid uses the
  first minimum for all axes.
* C42 the fibers assigned are not maximal: 13 points on the sphere (`Fiber.multiplets_not_maximal`).

### Pair counts and estimators
* C48 (read) NaN averages reported for empty bins would poison the reduction (`Pairs.empty_nan` shows it).
* C59 `D2R1` equals `D1R2` with one data set and two different randoms (`Estim.ls_wrong_randoms`).
* C60 the natural estimator of an auto-correlation is off by `-1/N` (`Estim.natural_bias`).
* C61 the angular cap area uses the chord as the base radius (`Estim.capArea_wrong`).
* C62 projected mode with `1 <= pimax < 2` fails (`Estim.wp_single_bin`).
* (read) A loaded pair count loses `pairs.attrs['total_wnpairs']`; `__setstate__` of the 2PCF loses `fields_to_sum` and `attrs`;
  `shift_to_box_center` checks with strict inequalities raise at exactly 0 or BoxSize.

### Serialisation and cosmology
* C51 JSON: the shape of arrays with an empty dimension, tuples, infinite imaginary parts, dictionaries with reserved keys,
  bytes, padded and nested structured dtypes (`Json.empty_shape`, `tuple_list`, `complex_inf`, `reserved_complex`,
  `reserved_dtype`, `bytes_fail`, `padded_fail`, `nested_fail`).
* C64 `T_cmb`/`T0_cmb`, `Omega_k`/`Omega0_k` and the spellings of the cosmological constant can be given together, one is
  ignored (`Cosmo.both_names_ignored`); defaults are not removed beside `omega_b`, `100*theta_s`, `Omega_g`, `Omega_ur`
  (`Cosmo.defaults_conflict`).
* C65 `clone(T0_cmb=...)`, `clone(Omega0_k=...)`, `clone(Omega0_lambda=...)` return the old value
  (`Cosmo.clone_ignores`); `clone(m_ncdm=...)` keeps the old `N_ur`, `clone(Omega0_ur=...)` raises KeyError
  (`Cosmo.clone_neutrinos`); `clone()` restores `output=None` to the default (`Cosmo.clone_output`).
* C67 `to_astropy` sets `w0 = wa` if `w0 = -1` and `wa != 0` (`Cosmo.astropy_w0`).

### Surveys (`algorithms/convpower`)

* C69 The data may lie outside the box of the randoms without notice (`Fkp.data_outside`); one common coordinate gives a
  box side of 0 (`Fkp.box_zero`); randoms without a selected object raise, where no randoms fall back to the data
  (`Fkp.box_unselected`).
* C70 If no random is selected `alpha` is infinite and the whole field is NaN (`Fkp.field_unselected`).
* C71 Without randoms, documented as allowed, the shot noise is NaN (`Fkp.shotnoise_no_randoms`). A second call of
  `shotnoise` raises UnboundLocalError (`Fkp.shotnoise_twice`). `allclose` has an absolute tolerance of 1e-8, so that
  small norms pass the check of 5% whatever their ratio (`Fkp.norm_check_small`). The documented attributes
  `data.shotnoise` and `randoms.shotnoise` are not set.
* C72 The box "big enough for both catalogs" takes size and center of the larger box on each axis, and does not contain
  the other box if the centers differ (`Fkp.joint_misses`); boxes of equal size with different centers are not joined
  (`Fkp.joint_same_size`); `recenter_box` does not change `pm`, from which the cell volume, the wavenumbers and the
  bins are taken (`Fkp.joint_stale`).
* C73 An empty list of multipoles passes the checks and fails with UnboundLocalError (`Convpower.no_poles`). The k = 0 mode
  does not satisfy the addition theorem (`Ylm` is evaluated at the zero vector), so its multipoles beyond 0 are not those
  of the estimator.
* C74 (read) A wedge of width zero divides by zero; the power is stored in single precision (`c8`).

### Reconstruction (`algorithms/fftrecon.py`)

* C75 With an empty data or random catalog the field is NaN everywhere (`Recon.run_empty`).
* C76 `los /= (los ** 2).sum()` divides by the square of the length, so that a vector whose length is not 1 is not normalised
  (`Recon.los_scaled`, `los_length`). The factor `1 + los * f` is applied component by component, which is right for the three
  positive axes only (`Recon.rsd_iff`); with `los = [0, 0, -1]` the data are moved by `1 - f` (`Recon.los_flipped`).

### Mock catalogs

* C78 The shift within the cell is drawn up to `H[i]` with the `i` left over from a loop, the last axis, for all axes: in cells
  that are not cubes the objects leave their cell or fill a part of it (`Mock.place_wrong`). (read) The cells of pmesh are
  centered on the grid points for painting with the nearest-cell window, but the shift is towards the upper side only.
* C79 `UniformCatalog(seed=None)` draws the number of objects with `RandomState(None)`, differently on every rank: the ranks get
  overlapping or missing rows, some may raise, and `attrs['seed']` does not give the catalog again
  (`Seeds.uniform_none_sizes`, `uniform_none_raise`, `uniform_none_seed`).
* (read) `ArrayMesh` of a complex array always makes an even last axis (`irfftn` without a shape), so that a mesh with an odd
  number of cells does not make the round trip.

### Three-point function (`algorithms/threeptcf.py`)

* C80 `chunk_size = max(loads) // 10` is 0 for fewer than ten primaries on the fullest rank and `iprim % chunk_size` raises
  ZeroDivisionError on that rank, for a log message (`Tpcf.few_primaries`); the others wait in the reduction. No multipoles, or one
  given twice, raise ValueError (`Tpcf.bad_poles`). (read) Pairs of distinct objects at the same place are dropped with the self pairs;
  triangles whose two secondaries are the same object are part of the diagonal bins.

### Power spectra (`cosmology/power`)

* C81 After `sigma8 = 0` the setter divides by zero for any other value (`Power.sigma8_zero`).
* C82 `Pk = numpy.zeros_like(k)` is an array of integers if `k` is: `LinearPower(1)` with the transfer function of CLASS is 0 because the power is
  less than 1 before it is normalised (`Power.class_integers`), and `HalofitPower` truncates (`Power.halofit_integers`).
* C82 The fitting formulas give 1 for the number 0 at any redshift, and the growth factor for an array that holds 0 (`Power.eh_zero`).
* (read) `FNLGalaxyPower.total_bias` divides by the root of the linear power instead of the transfer function, so that the correction depends on
  `sigma8` and has a dimension. `LinearNbody.seed_from_synchronous` compares the gauge with a misspelt name and always clones.
* C83 `MatterDominated(Om0, a_normalize=n)` without `a` divides by the value at the point of the built-in grid nearest to `n`, so `D1(n)` is not one
  (`default_grid_off`); with `a` given the point is added to the grid and the value is one. Past the last step (and for `a > 1` with the built-in
  grid) the functions stay constant without an error (`growth_clamped`).
* C84 `HaloCatalog.populate(model)` with a model instance that has populated another halo catalog before puts the galaxies in the halos of that other
  catalog (`hasattr(model, 'mock')`), silently (`second_catalog`, `second_catalog_ignored`).
* C84 With `seed=None` each rank draws its own seed, `attrs['seed']` differs between ranks, and no seed reproduces the catalog (`no_seed_differs`).
* C84 `_enum_gal_types` numbers `sorted(types[1:])`, `attrs['gal_types']` numbers `types` as they come: three types out of order get the wrong integers, and
  with them `fsat` (`types_mixed`).
* C84 `repopulate` that finds no galaxy raises after the catalog has been re-initialised: `Position` and `Velocity` are gone and `attrs` are the old ones, while the
  model keeps the new parameters (`empty_leaves`).
* (read) `populate` with an instance of `HODModel` raises the TypeError of `issubclass` and not its own message.
* C85 `KDDensity` computes `meansep` as `(N/V)^(1/3)`, the inverse of the mean separation, and uses it as the unit of the ghost margin: in a box of side 10 with 8
  particles on two ranks all densities are 0, on one rank they are not, and in a box of side 1 both agree (`depends_on_unit`, `meansep_inverse`).
* C85 The documented distance is that to the closest neighbour; the code takes the eighth in the tree, which is the seventh neighbour.
* (read) `KDDensity` with a `BoxSize` of shape (1,) makes an array of shape (3, 1) and fails later; a box that is not a cube is an AssertionError.
* C86 `decompose(..., columns=['Position'])` of a catalog with weights gives a catalog whose `Weight` is 1: the default column hides that the column was left
  out (`weight_lost`).
* C87 `to_mesh(resampler='CIC', compensated=True)` is accepted (pmesh knows the name) but painting raises ValueError: only the setter of `resampler` lowers the
  name, the constructor does not (`capitals_raise`).
* C87 The compensation functions loop over three axes: a compensated mesh in two dimensions raises IndexError (`capitals_raise`).
* C87 The comments say the PCS shot noise kernel was fitted and that the kernels are correct to first order: they are the exact mean power of a Poisson sample
  (`pcs_shotnoise`, `shotnoise_white`).
* C88 With `dk=0` the last edge lies half the last spacing above the last value, which can be above `kmax`: for a cube of 6 cells a side the bin of |k|^2=8 also
  counts the modes with |k|=3, the Nyquist frequency (`beyond_counted`).
* C88 For a box with sides that differ by 0.05% two values of |k| are merged if their modes are on one rank and kept apart otherwise: the bins depend on the number
  of ranks (`depends_on_ranks`). The first binning is in |k|^2 with (k0/20)^2, the second, after the gather, in |k| with k0/1e5.
* C88 One value of |k| below `kmax` is an IndexError (`few`). `kmin` is not used when `dk=0` (read).
* C89 `FFTCorr` bins mu from 0 to 1 while the mesh has separations of both signs (FFTPower bins from -1 to 1): separations with mu<0 are dropped. As mu=0 is kept
  once and every other separation half, the 1d result is not the mean over the bin and depends on `los` (`half_counted`); for a cross correlation xi(r) and
  xi(-r) differ and one of them is lost (`cross_lost`).
* C90 `ProjectedFFTPower` sums c1 c2* of one of two opposite modes with weight 2 without adding the conjugate: the imaginary part of a cross power is that of half of the
  modes, while the mean over all modes is 0 (`imag_kept`, `imag_cancels`); FFTPower clears it. `modes` misses one per row for odd numbers of cells (`odd_modes`).
* (read) The BinnedStatistic of `ProjectedFFTPower` has neither `fields_to_sum=['modes']` nor attrs: re-binning averages `modes`.
* C91 A catalog with `attrs['Nmesh'] = 64` makes meshes in three dimensions; after `save` and `BigFileCatalog` the attribute is an array of one item and `to_mesh()` makes a mesh
  with one dimension (`nmesh_one`): `MeshSource.__init__` takes the length of the array as the number of dimensions and `BigFile` does not squeeze, unlike `BigFileMesh`.
* C91 Attributes with more than one dimension are flattened (`matrix_flat`), numbers become arrays of one item in catalogs (`number_array`), and arrays of one item become
  numbers in meshes (`mesh_one_item`). The tests use assert_array_equal, which does not see this.
* C91 A text attribute that starts with `json://` is decoded, or makes the file unreadable (`tagged_text`).
* C91 `CatalogSource.save` to an existing file keeps old entries of the header (`stale`).
* C91 Attributes given to `BigFileCatalog(attrs=...)` override those of the file, attributes given to `BigFileMesh(...)` are overridden (`catalog_partial`, `mesh_partial`).
* (read) `test_real_save` of meshes saves with mode='complex': saving in configuration space is not tested. Both errors about missing attributes in `BigFileMesh` name `ndarray.shape`.
* C92 `ArrayMesh` of a complex array calls `irfftn` without the shape: a mesh with an odd number of cells along the last axis gets one cell less (`odd_cells`). The result is always
  double precision, whatever the precision of the array (read).
* C92 `to_real_field` of `BigFileMesh` does not compare the sizes, `to_complex_field` does (`size_checked`).
* C93 `CartesianToSky` after `SkyToCartesian` returns the redshift of a linear interpolation, exact only at the points of the grid (`between_grid`); the right ascension is lost at the poles (`pole`).
* (read) `CartesianToSky`: the documented formula of the redshift with velocity omits the cosmological redshift; an object at the observer divides by 0 when a velocity is given.
* C94 `VectorProjection` documents vectors of shape (..., D) but needs N x D: a single vector is an IndexError (`shape_single`), (N, M, D) is a ValueError, and (N, D, D) silently has the shape (N, 1, D) (`shape_more`).
* C95 `HDFFile(exclude=['ds1'])` also removes `ds10`: names are compared with `startswith` (`excluded_sibling`). `header='/Header'` is not excluded, `header='Header'` is (`header_slash`).
* C95 For a single structured array `attrs` is replaced by the attributes of the dataset: those of the header are lost (`header_attrs`).
* C95 `HDFFile(dataset=...)` with the path of a plain array opens with a column `f0` that cannot be read (`plain_root`). The attributes of excluded datasets stay in `attrs` (`example_read`).
* C96 `SlabIterator` rejects symmetry axes below -ndim but not those of ndim or more (`symmetry_axis_unchecked`), which fail later with an IndexError.
* C97 `TopHat(0)` gives nan for every mode but the mean (`tophat_zero`); `Gaussian(0)` is the identity.
* C98 `EisensteinHu.__init__` computes `beta_c = 1. / (1 + b1 * ((1-f_b) ** b2) - 1)`; the `- 1` belongs inside the inner parentheses, `1 + b1 * ((1-f_b)**b2 - 1)`, so that beta_c = 1 without baryons. As written beta_c > 1.05 for every cosmology (`betaC_ge`), and for a small baryon fraction the transfer function of cold dark matter is too large at every k (`betaC_wrong`). Also `b2 = 0.395 * Omh2 ** -0.0266` should be `(0.395 * Omh2) ** -0.0266`: it is less than half of what it should be (`betaCB2_wrong`). The published formulas are transcribed by hand; they belong to the trusted base of C98.
* C98 (read) `EisensteinHu` with `Omega0_b = 0` divides by `r_eq = 0`.
* C99 `DDrppi_mocks` documents the bins along pi as one unit deep, but `numpy.linspace(0, pimax, int(pimax)+1)` makes int(pimax) equal bins of depth pimax/int(pimax): they have unit depth only when pimax is a whole number (`piEdges_unit`, `piEdges_case`).
* C99 The smoothing for angles is `2 sin(theta_max/2)`, which decreases beyond 180 degrees and is 0 at 360 (`smoothing_beyond`); `edges` up to 360 are not rejected and the decomposition then loses pairs across domains.
* C99 (read) a catalog which is flat along one axis of the decomposition (all objects at the same coordinate) gives coincident grid edges (`grid_flat`), which pmesh's GridND cannot use to split the objects; the counts are still right as long as a cell is found for each.
* C100 `los in 'xyz'` is a substring test: '', 'xy', 'xyz' are accepted and mean x, 'yz' means y (`los_strings_partial`, `los_two_axes`). A float 0.0, 1.0, 2.0 passes `los not in [0,1,2]` and fails only in `run` with IndexError (`los_float`).
* C100 `verify_input_sources` compares BoxSize only when both sources have one (`boxSize_unchecked`): an argument that contradicts the first source is accepted when the second has no BoxSize, and a second source with a different box when the first has none. Only a box that is zero along all axes is rejected.
* C100 `shift_to_box_center` documents closed intervals but compares strictly, so a particle at 0 (or at the box edge) is a ValueError (`shift_boundary`). A centered catalog whose coordinates happen to be all positive is shifted (`shift_centered`); since the two catalogs are shifted independently, a cross count can put them in different frames (`observers_differ`).
* C100 the angular mode writes columns 'ra' and 'dec' into the catalogs of the user, replacing existing ones (`catalog_changed`, `column_lost`).
* C101 `ConvolvedFFTPower._compute_multipoles` protects `knorm` against zero but not `xnorm`: a cell whose centre is exactly at the observer gets the direction 0/0 = nan (`observer_cell`: BoxCenter = -BoxSize/(2 Nmesh)), and the transform spreads it over all modes of the higher multipoles.
* C102 `to_poles` evaluates the Legendre polynomial at the middle of each bin, so a correlation without anisotropy c gets the quadrupole -5 c / (8 N^2) with N bins in mu (`isotropic_quadrupole`); the error falls with the width of the bins (`pole_error_partial`, `pole_limit`). The column of separations is the plain mean over the wedges, regardless of the number of pairs in each, and nan when a wedge has none (`x_unweighted`, `toPoles_spec_partial`).
* C103 `FNLGalaxyPower` documents an attribute `sigma8` which it does not have, so `CorrelationFunction` refuses it with an AttributeError (`new_cases`). `CorrelationFunction` multiplies P(k) by exp(-(k smoothing)^2), not by a Gaussian in k with standard deviation `smoothing` as documented (`damp_not_documented`). Its `attrs['cosmo']` is copied on construction and keeps the old cosmology after `sigma8` of a `HalofitPower` is changed (`attrs_stale`).
* C104 `FNLGalaxyPower.total_bias` divides by k^2 sqrt(P(k, z)) / (1 + z) where the published scale-dependent bias has k^2 T(k) D(z): the correction depends on sigma8 (`bias_amplitude`) and the growth enters twice (`bias_redshift`). At k = 0 the result is nan even for fNL = 0 (`gaussian_zero`).
* C105 `sel` with a slice never includes the last bin: both ends are turned into indices and the end is exclusive (`slice_never_last`). The recipe in the documentation of `to_poles`, `self.sel(mu=slice(*mu_range), method='nearest')`, drops the last mu bin of the full range (`full_range`).
* C105 `sel` with a slice that has no start or no stop raises, and its step is ignored (`slice_open`). A list loses order and repeats, and lists with gaps get the edges and coordinates of other bins (`list_edges`).
* C105 `rename_variable` leaves `_fields_to_sum` alone, so renamed counts are averaged instead of summed by `reindex` and `average` (`rename_unsums`).
* C107 `FFTPower(mode='1d')` and `FFTCorr(mode='1d')` with exactly one bin raise an IndexError, and `mode='2d'` with one k bin or `Nmu=1` raises a ValueError: `numpy.squeeze` removes dimensions that the edges still have (`single_bin`, `single_mu`, `single_case`).
* C107 `FFTPower(cat, second=cat)` makes two meshes of one catalog, so it is treated as a cross-correlation and the shot noise is 0; the same for a field passed twice (`same_catalog_twice`, `both_spec`).
* C107 a result without multipoles has `poles is None`, but after `save` and `load` the attribute is missing: reading `poles` or saving again is an AttributeError (`load_poles_missing`).
* C107 with an odd number of cells per side the default bins of `FFTPower` end half a fundamental mode below the Nyquist frequency (`cube_odd`).
* C108 `PairCountBase.__setstate__` (base.py 65-91) does not restore `pairs.attrs['total_wnpairs']`, which the 2PCF estimators do not need (they use `attrs`), but users may.
* C108 `BasePairCount2PCF.__setstate__` (tpcf.py 148-162) builds the pair counts as plain `WedgeBinnedStatistic` without `fields_to_sum`, so that `D1D2.average('mu')` gives the sum of the pairs before saving and their mean after loading (theorem `sums_lost`).
* C108 random pairs given as `R1R2` are not compared with the bins asked for: same shape is enough. After loading they carry the edges of the data (theorem `random_pairs_mislabelled`). With analytic randoms a given `R1R2` is silently ignored.
* C108 the angular mode with analytic randoms needs `BoxSize` in the attributes of the catalog (tpcf.py 492-507), the keyword `BoxSize` does not help: KeyError.
* C108 `SurveyData2PCF(..., periodic=True)` (an additional keyword meant for Corrfunc) silently switches to `SimulationBoxPairCount` and, without randoms, to analytic ones (tpcf.py 84-95).
* C108 in the projected mode `pimax < 2` (a single bin along the line of sight) always fails in `_compute_wp`; for a `pimax` that is not an integer the bins along the line of sight are not 1 Mpc/h deep, contrary to the documentation.
* C109 `ConvolvedFFTPower` changes the meshes that it is given: `actions` is emptied and `compensated` set to False (`cleared`), also when the run fails afterwards (`failing_run`), and for two meshes with different boxes the box of both is replaced (`boxes`), so that a later autocorrelation of one of them is computed in another box than before (`history_matters`). The bins stay those of the box the mesh was made with (`bins_spec`, `pmBox`).
* C109 The `compensated` flag of the meshes is ignored: the fields are always compensated if the window has a compensation (`flags_ignored`, `compensation_spec`).
* C109 `ConvolvedFFTPower.load` with a format other than `current` and `pre000305` raises nothing and returns an object without attributes (`unknown_format`). After a load the attribute `edges` is missing and `poles` has lost `fields_to_sum` (`saveLoad_partial`). `poles=[]` is an UnboundLocalError (`failing_run`).
* C110 With a scalar `BoxSize` the mean separation is `(L/N)^(1/3)` instead of `(L^3/N)^(1/3)` (`numpy.prod` of a number), although `fof` then takes the number as the side of a cube: the relative linking length is wrong without any message unless L = 1 (`FofObj.scalar_box`). `find_features` and `to_halos` then fail with a TypeError (`boxsize[i]`, `FofObj.features_errors`).
* C110 `max_label` is documented as the largest label over all ranks; it is the list of the local maxima (`allgather` without `max`), `FofObj.labels_spec`. The doc calls the attribute `max_labels` two lines before.
* C110 `find_features` returns one row more than there are groups: the first row is for the particles without group, with Length 0 and their mean position (`FofObj.features_spec`).
* C110 `fof_find_peaks` counts the labels and then returns names that were never assigned: it always fails (`FofObj.findPeaks_fails`).
* C111 `FiberCollisions` compares the collision radius (an angle) with the chord between the objects: for every radius there are objects further apart than the radius of which one loses its fiber (`chord_not_angle`; the difference is of third order in the radius). The unit sphere is put in a box of side 2.2 and `FOF` is called with its default periodic boundaries, so from a radius of 0.2 rad (11.5 degrees) on, objects on opposite sides of the sky collide (`antipodes`). A rank with exactly one object makes `numpy.squeeze` return a 0-dimensional array and the construction fails (`single_fails`); a rank without objects gives the ValueError of `FOF` (`empty_fails`). The catalog `labels` carries the attributes of the internal box, not `collision_radius` or `seed`.
* C112 `CylindricalGroups` builds the domain grid with `posmin[0]` on all three axes (cgm.py 171-173); the edges need not cover the objects and can decrease (`grid_wrong`). It stores the original index in a column `origind` of the user's catalog: a column of that name is lost (`origin_lost`), a hard column of that name makes the construction fail after all the work and stays hidden (`hard_origind_fails`), and when the grouping fails on the way (e.g. a rank without objects, `empty_rank_fails`) the column is left behind. An object at the origin, without a fixed line of sight, is not paired with itself (0/0) and gets `cgm_haloid = -1` (`origin_lost`). The `BoxSize` argument is ignored if the source has one (`source_box`), and without periodic boundaries and a box the groups carry a box of NaN (`no_box`). The sort is ascending and the last object has priority, so that `rankby=None` makes the last objects the centrals (`last_wins`).
* C113 (`io/base.py` 256-258): a column whose items are matrices of shape `(p, q)` is reshaped to `(-1, p)`: `file[name][:]` has `q` times too many rows (`matrix_wrong`), and `get_dask` gives an array that raises an IndexError when computed, since a tuple of three slices is not understood (`io/base.py` 215-220).
* C113 (`io/binary.py` 76): the size of an aligned data type counts the padding, which is not in a column-major file, so that files are refused or too few rows are found (`aligned_wrong`, `aligned_size`). A header larger than the file gives a negative size without an error (`header_too_large`).
* C113 (`io/fits.py` 36-50): without `ext` the first HDU with data is taken, also if it is an image, and then refused, although a table follows (`image_first`); for an extension given by name the message is formatted with `%d`, a TypeError instead of the ValueError (`name_type_error`).
* C113 (`io/stack.py` 51-56): the data type of a stack is that of its first file; the others are not compared (`stack_mixed`). A pattern sorts the names as text: `snap.10` before `snap.2` (`ten_before_two`).
* C113 (`io/base.py` 365-369): a view made by `asarray` still contains its columns, so `get_dask` does not give its ValueError but an IndexError (`dask_after_asarray`).
* C114 `CSVFile` inspects the first ten rows only (or `nrows`). A later float or empty entry in a column whose first rows are integers makes every read of its block raise, also for other rows and columns (`late_rows`, `misfit_fails`).
* C114 A `dtype` that does not fit the data is accepted when the file is opened and fails in every read (`wrong_type_accepted`).
* C114 The types are passed to pandas only with `engine='c'`. With `engine='python'`, `file['x'][:]` of a column of whole numbers with type `f8` takes the bytes of integers for floats, without an error (`python_engine_bits`).
* C114 A row with too many cells is rejected in the middle of a block, and cut silently where a block begins with it or if `usecols` is given (`long_row`).
* C114 `index_col=0` is accepted and ignored because only its truth value is tested; `skiprows=None`, which pandas allows, is a TypeError (`keywords_case`).
* C115 `_Read1DPlainText` (binned_statistic.py 1088-1110) adds the count of a line `# edges N` to its position without looking at it: with N = -1 it stays where it is and the loop never ends (`reads_forever`, `hangs`).
* C115 the metadata of a plain text file are made by calling the builtin named in the file on the text (binned_statistic.py 1022-1026, 1101-1106): `flag False bool` gives True, a text of several words keeps its first word only, and `x <expression> eval` evaluates the expression (`metadata_values`).
* C115 the first line gives the names of the columns whatever it is: in a file without header the line `# edges 2` names them `edges` and `2` (`edges_as_names`); a header with a name that contains `edges` is then read as the announcement of edges and fails (`edges_in_name`).
* C115 `x.real` followed by `y.imag` is one complex column `x` (`foreign_imag`); of columns of one name the last is kept, numbers without a name are dropped (`columns_lost`).
* C115 `if not line` (binned_statistic.py 1078) never holds, as lines keep their newline: a blank line is a row without numbers and makes the file unreadable (`blank_line`).
* C115 in two dimensions metadata lines that are missing at the end go unnoticed, in one dimension they are an error (`truncated`); with another number of dimensions the names `meta` and `data` are unbound (`wrong_dims`).
* C116 `MultipleSpeciesCatalog` stores the caller's list of names by reference in `attrs['species']`: appending a name later makes `columns` and `to_mesh` fail with KeyError (`names_shared`). A keyword `species=` replaces the list (`species_keyword`). Attributes are flattened to `name.key`, so that a dotted name collides with a dotted key of another species and the wrong mesh size is taken (`dotted_names`). `cat['a/b/x']` of a species `a/b` raises ValueError although the column is listed (`slash_name`). `check_species_metadata` skips species without the attribute, and uses the copies made in the constructor: a box changed in a species catalog is ignored (`stale_box`).
* C117 `LogNormalCatalog(Plin, ..., cosmo=c)` stores `Plin.attrs['cosmo']`, not `c`, in its meta-data although the velocities are computed with `c` (`cosmo_stale`); a redshift different from that of `Plin` is stored and used for the velocities, but the displacements are those of `Plin` (`positions_of_plin`). `(pos + disp) % BoxSize` gives exactly `BoxSize` for a position slightly below zero in finite precision (`mod_edge`).
* C118 (threeptcf.py 108-121) A three-point function of one to nine objects cannot be computed at all: the progress message divides by `max(loads) // 10`, which is zero (`few_objects`); with more than nine objects per rank it always can (`pigeon`, `sim_spec_partial`).
* C118 (base.py 144-146) `attrs['BoxSize']` as a number is a TypeError even if the BoxSize argument is given (`refused`); `periodic=None`, which the base class documents as no box, is a KeyError in `SimulationBox3PCF.run`.
* C118 (threeptcf.py 155-157) A result with one edge (no bins) is read back with a one-dimensional array (`no_bins`), edges given as a tuple as a list (`tuple_edges`).
* C119 (cosmology.py 118-167) Positional arguments are not compared with the keywords: `Cosmology(0.7, 2.7, 0.05, Omega_b=0.06)` drops the 0.05 silently, as keywords it is a ValueError (`positional_conflict`).
* C119 (cosmology.py 148-162) A call with the old names replaces all arguments by those converted from astropy, so `P_k_max`, `P_z_max`, `n_s` and `gauge` are not set and CLASS uses its own defaults (`deprecated_partial`, `deprecated_case`).
* C119 (cosmology.py 416-427) `from_dict` and `copy.copy` keep the dictionary they are given: writing into it later changes `dict(c)` and `clone` but not the attributes (`from_dict_alias`, `alias_case`). `c.pars = d` and `c.Background = x` are accepted although the object is called immutable (`object_case`).
* C119 (cosmology.py 370-378) A keyword of `from_astropy` with the name of a converted parameter replaces it without an error, against the comment that this will die (`from_astropy_spec`); another name of the same parameter is a ValueError (`from_astropy_conflict`).
* C119 (cosmology.py 188-196) `dir(c)` does not list the methods of the object itself such as `clone` and `match` (`object_case`).
* C120 `populate(model)` documents a model *instance* of `nbodykit.hod.HODModel`, but `issubclass(model, HODModel)` is evaluated for instances too and raises TypeError (`populate_model`, halos.py 251); only the classes work.
* C120 `concentration_key` is "the name of the column that will specify concentration": `Zheng07Model.to_halotools` only looks whether it is None (`zheng_key_name`), so that halotools always uses its default column; the models made by `HODModelFactory` do not look at it (`prebuilt_key_ignored`), so that `populate` never hands on the Concentration column of the catalog, which users are told they can override.
* C120 after `halos.attrs['mdef'] = ...` the columns Radius and Concentration and the HOD model use the new definition, but `to_halotools` still writes the columns of the old one: the model asks for a mass column that is not in the table (`mdef_stale`).
* C120 Radius and Concentration of a catalog follow Mass; those of a slice of it do not (`slice_case`), since all columns of a slice count as set.
* C121 `ArrayCatalog`: when the data types of the ranks differ only rank 0 raises the ValueError; the other ranks go on to the `allreduce` of the sizes and hang (`mismatch_stuck`). A rank whose own data are bad (no fields, columns of different lengths) raises alone, and the others hang (`plain_stuck`, `new_cases`). The dictionary of the caller is kept by reference: replacing an entry exchanges the column, with any length (`dict_live`, `dict_breaks_size`), and deleting it leaves a column that is listed and raises KeyError (`dict_breaks_column`). `save` promises to store the `attrs` of columns; each access makes a new accessor with empty `attrs` and an assignment drops them, so the stored attributes are always empty (`saved_no_attrs`). An empty dictionary or `persist([])` is an IndexError (`persist_refused`).
* C122 meshes: `preview` calls `to_field` and so ignores all actions (and the compensation of a `CatalogMesh`): the preview of a filtered mesh is the unfiltered one (`preview_wrong`). `ArrayMesh(**kwargs)`, "additional meta-data to store", drops the keywords (`array_spec`). A complex array is transformed by `irfftn` without the shape: for an odd last side the mesh has one cell less (`array_complex`). `compute(Nmesh=n)` returns a field whose `attrs['Nmesh']` is still that of the mesh (`resampled_reports`). `attrs` of views are shallow copies: writing into `attrs['BoxSize']` of a view or of a computed field changes that of the mesh (`view_shares`, `result_shares`). The seed is read from `attrs` of the base, and the returned field reports the `attrs` of the view, so that after an assignment the two differ (`seed_misreported`). `FieldMesh` accepts an untransposed complex field and fails with an AssertionError when it is used (`broken_spec`).
* C123: objects derived from a `BinnedStatistic` share memory with it in ways that differ from method to method. `st[:, 1:3]` and `st[['power']]` share the variables (and the slice also the mask), while `st[0]`, `st[[0, 1]]`, `sel`, `take`, `squeeze` and `copy` do not; `copy`, `squeeze`, `reindex` and `from_state` share the arrays of edges and coordinates, while selections do not (`not_independent_slices`, `not_independent_names`, `not_independent_edges`).
* C123: `fields_to_sum=[]` is a default that is one list for every object (binned_statistic.py 142), and `__finalize__` hands the list of the original on: `a._fields_to_sum.append(...)` changes which variables are summed by `reindex` for all objects made with the default (`not_independent_fsum`).
* C123: `st[key] = ...` builds the new type from `dtype.descr`, which has entries for the gaps that indexing by names leaves: `sub = st[['power']]; sub['ratio'] = ...` gives `sub` a third variable `f1`; a variable that lies behind a gap cannot be overwritten (ValueError), because the place among the names is used as the place in the description; and after `st[['modes', 'power']]` (another order) every assignment is a ValueError (`gap_becomes_variable`, `gap_refused`, `wrong_place`, `order_refused`).
* C124 mirror follows a link `../` (it resolves to `url/..`, which begins with the URL): the parent's files are written over the parent of the target; `./` recurses until RecursionError.
* C124 the test `link.startswith(url)` compares strings: `http://h/d2/x` counts as below `http://h/d`, and `http://h.evil/x` as below `http://h`.
* C124 an HTML file with a relative link (also `#top` or `mailto:`) is taken for a directory: the link is opened below the page, the server answers 404 and the mirror ends with part of the tree; download_example_data reports this as an unknown example.
* C124 an empty directory is saved as the file `name.html`; it overwrites, or is overwritten by, a page `name.html` depending on the order of a set.
* C124 available_examples lists nested paths `s/f`, but download_example_data does not make `s` and raises OSError; links `x` and `x/` are listed twice; a name with `..` leaves the directory.
* C125: when an exception leaves `with CurrentMPIComm.enter(c)` and is caught inside `with TaskManager(...)`, the manager's exit pops the left-over communicator instead of its own and frees its own: `CurrentMPIComm.get()` is then a freed communicator and the next `pop` fails (`caught_inside`; the same for an unbalanced `push`, `unbalanced_push`).
* C125: `use_mpi` does not give back the default settings: the chunk size becomes 102400, the one after import is 100000 (`use_mpi_not_default`).
* C125: scopes undo only their own setting. After `with CurrentMPIComm.enter(SELF): use_distributed()` the communicator is the old one with the scheduler and chunk size of `distributed`; after `with set_options(): use_distributed()` it is the other way round (`half_distributed`, `half_options`). `use_distributed()` without a client raises after the scheduler has been changed (`no_client`).
* C125: a TaskManager entered inside itself loses the first communicator: the outer exit frees the second again and fails, the first is never freed (`entered_twice`).
* C125: the message of `is_worker` says that it can be called inside the `with` block only; it answers also after it (`is_worker_after`). A `set_options` object used again as a context restores the options of when it was made, undoing all changes since (`stale_object`).
* C126: a client that waited three seconds for the lock sees the dataset published by another one and returns although no worker is set up yet (`returns_early`); it may also see the KeyError, as the comment in the code admits (`key_error_seen`).
* C126: the key is published before the callback is registered. A client lost between the two requests leaves the scheduler without the setup for ever: every later call of use_distributed finds the key and registers nothing (`lost_client`). Registering first, or removing the key on failure, would avoid it.
* C127 A view of a CatalogMesh (`view()`, `apply(f)`) copies the list of actions with the compensation in it, but paints through its base. Changing `mesh.interlaced` or `mesh.resampler` after `apply` gives a field painted with the new settings and compensated for the old ones; `mesh.compensated = False` has no effect on it (`CatMesh.view_mixed`).
* C127 Views are plain MeshSource objects: `view.compensated = False`, `view.resampler = 'unknown'`, `view.Weight = ...` are accepted and do nothing (`CatMesh.view_ignored`). `view.to_real_field(out=f, normalize=False)` drops both arguments (`CatMesh.paintInto_view`).
* C127 `to_mesh(resampler='CIC', compensated=True)` is accepted, `compute` then raises ValueError, because only the setter converts to lower case (`CatMesh.window_case`).
* C127 `compute` overwrites the attributes found while painting by those of the mesh, which include those of the catalog: a catalog with an attribute `N`, `W`, `W2`, `shotnoise` or `num_per_cell` hides the real number, and FFTPower then uses the wrong shot noise (`CatMesh.stale_stats`).
* C127 A column assigned to a mesh that is longer than the catalog is cut without an error if the chunk size divides the number of objects, and refused otherwise (`CatMesh.rows_ok_iff`, `CatMesh.rows_case`).
* C128 `CatalogSource` objects (base/catalog.py 275-362, 474-507): `map_blocks(numpy.copy)` for slices of at most 51 % "to decouple from the original data" is lazy like the rest, so what is later written into the caller's array shows in the slice (`small_slice_follows`).
* C128 a copy and a selection hold default columns as assigned ones: `copy().save()` writes `Selection`, `Value` and `Weight` (`copy_saves_defaults`); `copy()` reads `self._attrs`, which exists only after `attrs` was used, and fails with AttributeError before (`copy_needs_attrs`).
* C128 columns are passed to `_from_columns(cls, size, comm, **columns)`: a column called `cls`, `size` or `comm` makes every slice, and its selection, a TypeError (`reserved_names`).
* C128 the index of rows is checked only by indexing the columns: a catalog that has only default columns accepts indices that do not exist (`rows_out_of_range`); an index that fails on one rank only leaves the others in `allreduce` (`one_rank_raises`).
* C128 `__finalize__` copies `_attrs` only if it exists: a view made before the first use of `attrs` has other attributes than its base, one made after has the same; slices share, so setting an attribute of a slice changes the full catalog (`attrs_by_order`).
* C128 a slice of a view takes the class of `base`, a copy the class of the view itself; with a class that has its own columns the copy may hold a column of another length (`typed_view_copy`, `classes_of_views`); `get_hardcolumn` of a slice gives the column that was not sliced (`hard_column_of_slice`).
* C129 `seed_from_synchronous` (linearnbody.py 191-195): `p0` of baryons and neutrinos is `t + h'/2 * a0/H0`; the equation of continuity asks for `(t + h'/2) * a0/H0`. The momenta are right only for zero velocity divergence (`seed_baryons_iff`). The gauge is compared with the misspelled `synchronuous`, so a synchronous cosmology is cloned once more, without effect on the result (`seed_gauge`). With the default neutrino velocity a background without massive neutrinos is an IndexError (`fluids_spec`).
* C130 `ZeldovichPower._setup` (zeldovich.py 98-104): `sigma_v^2` is integrated up to `kmax=10`, `I0` and `I1` over a grid up to 100, extrapolated. The stored `X` is that of the docstring less `2 delta`, with `delta` the part of `sigma_v^2` beyond 10: it is negative near zero separation for every positive power (`setup_X_negative`), and the result is the one of the docstring times `exp(k^2 delta)` for every order (`full_ratio`, `factor_gt_one`).
* C130 `velocity_dispersion` with the bounds exchanged returns a complex number, since the power 0.5 of a negative Python float is complex (`dispersion_swapped`). `ZeldovichPower` refuses an empty array with the ValueError of `numpy.vectorize` (`call_empty`), where `LinearPower` returns an empty array.
* C131 `MPIRandomState.choice(..., replace=False)` is without replacement only inside a chunk: over several chunks elements repeat, and must repeat if more items are drawn than there are choices (`choice_repeats`). With `replace=False` and `p` numpy draws in rounds whose length depends on the number of items asked for, so the first rows depend on how many rows follow: the result depends on the division into ranks, and two ranks that share a chunk can both return the same element (`weighted_depends_on_ranks`).
* C131 An error of the sampler is not collective: a rank raises only for the chunks that it computes, cut at its own end, so some ranks return and the others raise (`errors_not_collective`). An argument whose length is not the local size raises on that rank before the collective padding, and the others wait for ever (`wrong_length_hangs`); on a rank with exactly one item it is silently accepted and the call returns as many numbers as the argument has (`one_item_many`).
* C132 A `break` in `for task in tm.iterate(tasks)` (or an exception in `map`) leaves the generators at their `yield`: neither DONE nor EXIT is sent, and the root waits for ever in `_distribute_tasks` because `closed_workers` never reaches the number of workers (`TaskStop.halted_forever`). With an exception `__exit__` calls `os._exit(1)` on the ranks that raised, so it depends on the MPI runtime whether the others end.
* C132 `iterate` documents `tasks` as an iterable, but the root calls `len(tasks)`: with a generator the root raises a TypeError and all groups wait for ever for an answer to their first READY (`TaskStop.iterator_waits`).
* C133 `view()` of an `FFTRecon` copies `attrs`; the field of the view is made with the `attrs` of the base. After `view.attrs['bias'] = b` the field is unchanged but comes with `attrs['bias'] = b`; after `recon.attrs['bias'] = b` the field of the view changes but is reported with the old bias (`view_set`, `base_set`).
* C133 `attrs['los']` set after construction is used as it is; only the constructor divides (by the square of the length, see C76) (`set_los_differs`). `bias=0` passes the constructor and fails with `ZeroDivisionError` in the kernel (`bias_zero`); an unknown `attrs['scheme']` set later fails with `UnboundLocalError` only after the displacements and the field of the randoms were computed (`scheme_unbound`).
* C134 `RedshiftHistogram(bins=[...])` with a list, as documented ("sequence of scalars"), ends in a TypeError: `0.5*(edges[:-1] + edges[1:])` joins the lists (`ZhistObj.make_list`). Set later as `attrs['edges']`, a run replaces `bin_edges` and then fails, leaving the old centers and densities (`half_run`).
* C134 The array of edges is not copied: `bin_edges`, `attrs['edges']` and the array of the caller are the same, so that changing it afterwards changes the reported edges but not `nbar` (`poke_seen`). Objects from `load`, `copy.copy` or `pickle` lack `source` and `cosmo` (`run()` is an AttributeError), the latter two also `comm` (`save()` is an AttributeError) (`restored_forever`).
* C135 (source/catalog/file.py 70-101): `query_range` of a slice or of a copy reads the file again from the `start` of the original: the slice is forgotten (`slice_forgotten`). The guard against attached columns looks at `CatalogSource.hardcolumns`, which is empty for every catalog with its own memory and lists the columns of the file for a view: so assigned columns are lost without a message, and a view without attached columns is refused (`view_refused`).
* C135 (source/catalog/file.py 86-100): a range beyond the end of the file is accepted; the columns are then shorter than `size`, and `copy()` or another `query_range` fail with an AssertionError (`query_beyond`). `other.start = start` replaces the start of the previous query instead of adding it, so that the third query of a chain has the wrong rows (`chain_wrong`).
* C135 (source/catalog/file.py 44-49): `FileStack` is opened on rank 0 only, so a missing file raises there while all other ranks wait in `bcast` (`open_missing`). A column of the file that was replaced by an assignment cannot be restored: `del` is refused (`delete_refused`).
* C136 With more ranks than `2 * paint_chunk_size` FFTPower may raise RuntimeError for a catalog that is fine on one rank (`Pipe.ranks_fail`). A catalog whose total weight is not positive is silently replaced by a uniform field, so that its power is 0 while the shot noise is positive (`Pipe.no_weight`); the warning is given only if there are no particles.
* C137 `ConvolvedFFTPower` of the same rows fails or not, depending on the layout: a rank with rows of which none is selected makes `get_data_bounds` take the minimum of an empty array (`Survey.ranks_fail`).
* C137 Randoms whose completeness weights sum to 0 give no error but NaN in all multipoles (`Survey.weightless_randoms`, `weightless_case`): `alpha` is infinite, `randoms.norm` is NaN, and `NaN > 0` is false, so that the check of the norms is skipped. If the weights of the data sum to 0, too, `alpha` is NaN and `numpy.allclose(alpha, alpha)` is false, which is reported as if there were two different `alpha` (`weightless_both`).
* C137 Without randoms the result is the power of the data alone with norm 1, `randoms.norm` 0, and an `alpha` and a shot noise that are not finite (`Survey.no_randoms_case`).
* C138 The forwarding thread calls `fflush` before `select` (wurlitzer.py 159-161). When the pipe is full at that moment and the C library still has bytes, the only thread that reads the pipe waits for it to be read: the block never ends (`Capture.never_left`). One byte more than the pipe holds (64 KiB on Linux), printed before the thread comes to its first `select`, is enough, with or without the interpreter lock (`can_hang`). A C function that keeps the lock and prints more than pipe and buffer hold never returns at all (`call_never_ends`).
* C138 When the process has too few free descriptors, `__enter__` fails between the two streams and leaves descriptor 1 on a pipe that nobody reads (`Capture.setup_leaves_stdout`; everything else that was open stays, `setup_failed_partial`); `_run` of a Corrfunc callable then fails with UnboundLocalError, as `out` is not bound (`unbound_out`).
* C138 Every piece of at most 1024 bytes that the thread reads is decoded by itself with `'replace'`: a UTF-8 character that is cut becomes two replacement characters, and the text depends on the scheduling (`Capture.message_depends`).
* C139 `CatalogSource.save` creates every block (emptying one that exists) before any lazy column is computed: a catalog loaded with `BigFileCatalog` and saved to its own file loses all its rows (`own_file`, `load_then_save`); an attribute that cannot be stored raises ValueError only after the blocks were emptied, so the rows of an existing file are lost (`bad_attr`); saving fewer or other columns into an existing file leaves the old blocks: with another size the file cannot be loaded any more (`other_size`), with the same size old rows stand beside new ones (`shown_rows`); a header of another name makes the file unreadable without `header=` (`other_header`); columns named `Header`, `header` or `.` are written but never shown (`hidden`); `datasets` with a name for every column raises ValueError when one of them is a default column (`datasets_default`); attributes of columns are written but not read (`attrs_forgotten`).
* C140 `NaturalEstimator` normalises the weighted data pairs with the number of particles of the analytic randoms: the pairs of an auto-correlation are `N**2` times the filling factor, while the total is `N*(N-1)/2` (estimators.py 112-140), so `1 + xi` carries a factor `(N-1)/N`; particles of weight zero change `N` and with it `xi` (`BoxTpcf.zero_weight_counts`).
* C140 In the mode '2d' the bins of `mu` are `[0, 1)` (simbox.py 206-220, theory.py 84-100): a pair of particles exactly along the line of sight is in no bin (`BoxTpcf.along_lost`, `case_along`), though the filling factor counts the whole shell.
* C141 `SurveyDataPairCount` of modes '1d' and '2d' uses `DDsmu_mocks` with `mu_max = 1` and bins `[0, 1)` of `mu` (mocksurvey.py 171-182; mocks.py 58-75): a pair along the line of sight, `mu = 1`, is in no bin. Two objects of the same right ascension and declination at different redshifts are not counted whatever their separation (`SurvTpcf.line_of_sight_lost`).
* C142 Because of the factor `1 + los * f` (fftrecon.py 262-266) a reflection of the box along the line of sight gives the reflected field only if `los` is **not** reflected (`Recon.run_moved`, compare `los_flipped`).
* C143 A mesh of several species whose weights add up to a negative number is divided by the negative mean (species.py 166-167), the mesh of one catalog with the same rows is set to 1 (catalog.py 394-402): the powers differ (`MeshPower.species_negative`). `FFTPower` of a catalog with an empty species has `attrs['shotnoise']` NaN (`species_empty`).
* C144 `dpos` of threeptcf.py maps a component of exactly half the box to plus half the box, for both members of the pair. With an edge at `BoxSize/2`, which `SimulationBox3PCF` accepts, the odd multipoles then change when the catalog is mirrored (`mirror_half`: 0 becomes negative).
* C145 (observation) The numbers of groups of the same size depend on the argsort and on the layout of the particles; only the partition, the set of particles without a group and the list of masses do not. Programs that join halos of two runs by row number rely on more than FOF gives.
* C146 Without `flat_sky_los` the line of sight is the direction of the midpoint of a pair, so that the groups depend on the origin (`origin_matters`). Objects of the same rank are ordered by their position in the catalog, so that their groups depend on the order of the rows.
* C148 For radii of 0.2 radians and more the collision groups depend on the orientation of the sky: opposite directions are linked through the periodic boundary of the box when they are along an axis of the box (`rotation_matters`, with C111 `antipodes`).
* C63, C150 With exact real arithmetic Scott's bins lose no object of a catalog of rational redshifts that are not all equal (`Scott.scott_counts_all`: the range is never a whole number of widths, since pi is irrational). The loss shown in `scott_max_dropped` therefore needs a width changed by rounding; catalogs of equal redshifts and empty ranks remain broken.
* C71 The check that the norms of data and randoms agree has an absolute tolerance of 1e-8 (numpy's default), although the norms have the unit of a density: catalogs that raise ValueError in Mpc/h pass in kpc/h (`Fkp.check_units`).
