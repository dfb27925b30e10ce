# Formal model of pvtrace in Lean 4

This directory holds a Lean 4 model of danieljfarrell/pvtrace (source read from
`/repo`, pinned commit) and machine-checked proofs of the properties listed in
`properties.jsonl`. `MANIFEST.json` maps each property to the theorems that
prove it, and `seeded/LOG.jsonl` records the wrong-program experiments.

## Layout

* `lean/Verif/Spec/*.lean`   small specifications, written without reference to
  the model's helper functions.
* `lean/Verif/Model/*.lean`  the model: total functions that mirror the code
  branch by branch. Each definition cites file and lines of `/repo`.
* `lean/Verif/Lemmas/*.lean` helper lemmas.
* `lean/Verif/Props/*.lean`  the property theorems, each followed by an
  `example` that a concrete non-trivial case meets the hypotheses.
* `lean/Verif/Tests/*.lean`  unit tests of the project repeated on the model.
  They are a check of the model, not proofs of properties, and no claim rests
  on them.

## Modelling conventions

* Floating point numbers are replaced by elements of a linearly ordered field
  (`α`), by the real numbers where `sqrt`, `sin`, `log`... matter, and by `ℚ`
  in executable examples. Rounding, overflow, NaN and infinities are therefore
  not modelled, except that an infinite depth is modelled by `Option`/`⊤` and
  that places where the code divides by zero are reported as errors.
* The random number generator of the Python tracer (`np.random`) is an
  arbitrary state `σ` with an arbitrary `uniform : σ → α × σ`. Theorems hold
  for every such stream. The engine's own generator is modelled bit by bit
  over `BitVec 64`.
* Exceptions are values (`Except`).
* Mutable arrays written by the kernel are functions or lists returned by the
  model; a thread schedule is an arbitrary assignment of ray indices to
  threads together with an arbitrary order.
* Names versus objects: Python compares nodes by identity (`hit is root`) and
  stores names in metadata; the model keeps both (`ν` identities, `name : ν →
  String`).

## Trusted base

* Lean 4.33.0's kernel, and Mathlib's definitions used in statements
  (`ℝ`, `Real.sqrt`, `Real.sin`, `Finset.sum`, `List`, `BitVec`...).
* Axioms: only `propext`, `Classical.choice`, `Quot.sound` (checked with
  `#print axioms`).
* The reading of the Python/Cython source: the model is tied to the code only
  by the citations. The code is not run here. As a check, `Verif/Tests`
  evaluates the model on the inputs of `/repo/tests/test_box.py`,
  `test_sphere.py`, `test_cylinder.py`, `test_geometry_utils.py`,
  `test_frensel_*.py`, `test_light_utils.py`, `test_node.py`, `test_scene.py`,
  `test_transformable.py` and `test_refractored_tracer.py` and gets the values
  those tests expect. The last case of `test_ray_cylinder` compares with an
  empty list: the ray meets the rim only and the code reports no point
  (`PV.Tests.cylinder_touching`).
* Outside the model: IEEE rounding, NumPy, trimesh (Box and Mesh
  intersections of the Python tracer), SQLite, multiprocessing, OpenMP,
  meshcat, FastAPI, YAML parsing, file system. Where a property depends on
  one of them the assumed behaviour is an explicit hypothesis or a parameter
  of the model, recorded below.
* `Spec/Scene.TrimeshSound`: for C56 and C57 points reported by trimesh for a box are assumed to lie
  on the box. `Spec/Scene.Visible`: round shapes are larger than the absolute tolerance 1e-8.

## Plan per property

| id | modelled | how it is proved |
|----|----------|------------------|
| C01 | `step_forward` as a fuelled loop over arbitrary material/surface/component oracles (`Model/Tracer`) | loop invariant relating the emitted list to a regular grammar (`Spec/Grammar`) |
| C02 | same | induction on `maxsteps - count`; the model's fuel is shown to be irrelevant once it exceeds `maxsteps + 1` |
| C03 | same, with the ray arithmetic of `Ray.propagate` | invariant over consecutive events |
| C04 | same, with node transforms | invariant over consecutive events; rigid transforms round-trip |
| C05 | same, with the library's surfaces and components | case analysis per event, induction |
| C06 | `find_container` on the intersections of a family of nested/disjoint intervals along a ray (`Model/NextHit`) | combinatorial proof: hit once ⇔ contains the origin; nearest exit ⇔ innermost |
| C07 | `next_hit` | same family; adjacent = innermost just beyond the hit |
| C08 | kernel selection loop and Python `sorted` + `find_container` | equality of results for all lists |
| C09 | `trace_one` and `step_forward` over one scene description and one stream of uniforms | simulation relation pass by pass, induction on steps; `Spec/Agreement` states the side conditions where the codes differ; `_partial` because of them |
| C10 | `tally_histories`, kernel `tally` (`Model/Tally`) | fold invariants |
| C11 | both tallies on one history | equality of folds; needs a container candidate at each hit |
| C12 | kernel trace with and without recording | false in general (event budget): witness; `_partial` when the budget is not reached |
| C13 | `trace_bundle` with an arbitrary schedule | commutativity of disjoint updates and sums |
| C14 | `_bin_index` | false below `start` (truncation): witness; `_partial` for `v ≥ start` |
| C15 | moments | algebra over ℝ |
| C16 | `_compile_recorders` offsets | induction over the recorder list |
| C17 | row arithmetic | integer arithmetic |
| C18 | event log writes and `histories()` reads | round trip |
| C19 | `record`, budget check in `trace_one` | false when an absorb/emit pair fills the log: witness; `_partial` |
| C20, C21 | `_splitmix64`, `rng_seed`, `rng_uniform` over `BitVec 64` | invertibility of each step by explicit inverses |
| C22 | `Scene.simulate` split | arithmetic |
| C23 | `Scene.emit`, `emit_bundle` rows | arithmetic on residues |
| C24 | `simulate_stream` | induction |
| C25 | queue consumer `monitor_queue`, id assignment | induction over arbitrary interleavings; false for reused pool processes: witness |
| C26, C27, C28 | `is_end_ray`, the SQL queries as list comprehensions with `DISTINCT` | list reasoning |
| C60, C61 | progress bar and live rendering of `monitor_queue` | invariants over arbitrary interleavings |
| C62 | what `time` and `spectrum` hand to `handle_output` | case analysis |
| C29 | `Distribution` (`lookup`, `sample`, constructor) | monotonicity of interpolation |
| C30 | `Luminophore.emit` and kernel emission | from C29; kernel: false outside the table, witness |
| C31 | `interp_clamped` with its binary search | loop invariant |
| C32, C33, C34 | `Material`, `Component` | real analysis of `-log(1-u)`, cumulative sums; kernel at `u = 0`: witness |
| C35–C38 | Fresnel formulas over ℝ | trigonometry, `nlinarith` |
| C39 | phase functions over ℝ | trigonometry |
| C40 | local versus world computation | rotation equivariance |
| C41 | kernel sets world direction directly | false for rotated nodes: witness; `_partial` for unrotated nodes |
| C42–C45 | kernel and Python intersection routines and normals over ordered fields/ℝ | algebra |
| C46–C48 | poses as affine maps / 4×4 matrices, trees as parent chains | induction on paths and operation lists |
| C49, C50 | colours, masks | arithmetic |
| C63 | masks as maps of the unit square or cube | volume of preimages |
| C64, C65 | Light.emit loop, emit_bundle arrays | induction over rays; number k of ray j; witnesses |
| C51, C52 | Studio document as association lists, `auto_recorders` | list reasoning |
| C67 | face recorders of a box against the facet rule of recorders, with the engine's normals of a box in any pose | case analysis over faces; negation for rotated boxes |
| C68 | `_recorder_to_spec` against `parse_recorders` | round trip; witnesses of violation |
| C77 | `_patch` on association lists | values at paths, induction on the path |
| C78, C80 | `parse`, `parse_v_1_0` (`Model/SceneFile`) over documents; CSV files, named curves, meshes and `float(str)` are parameters (`Files`) | each stage against `Spec/SceneFile` (values at paths); parents: rank function from the loop check; witnesses of violation |
| C79 | the JSON schema as a checker (`Model/Schema`) | schema and `FileReady` imply success; witnesses of violation |
| C69, C70 | websocket `run` as tasks suspended at `await`, any schedule (Model/RunSchedule; the page and its messages are in Model/StudioRun, C134) | invariants over executions; witnesses |
| C53, C71 | `LSC.simulate` store, rows, counts, cache | counting over histories that satisfy the grammar of C01; violations for all runs |
| C74 | `contains`, `is_on_surface` of the three shapes against the solids | case analysis; witness |
| C72, C73 | facet labels, surface delegates of the LSC | case analysis; violations for all points and rays |
| C55 | `Transformable.rotate` on poses | witness |
| C75 | `CompiledScene` tables and the kernel's reads of them (`Model/Compile`) against the objects (`Model/Library`) | invariant of the growing tables; simulation of `trace_one` under renaming of nodes and components (`Lemmas/KernelHom`) |
| C76 | same | equivalence of acceptance with a predicate on scenes; witnesses of violation |
| C58, C59 | as C22, C23 | witnesses of violation |
| C56, C57 | the tracer over concrete scenes (`Model/Library`: the library's shapes, surfaces, components) | invariant over passes |
| C66 | add_history segments | list of drawn lines; witness |
| C81 | direction samplers of both tracers | change of variables in the integral over the random numbers (`Spec/Directions`), for every function of the direction |
| C82, C84 | `Distribution` | Lebesgue measure of the sets of random numbers against interval integrals of the spectrum; witnesses of violation |
| C83 | one pass of the tracer over a scripted random stream (`Directions.script`) | Lebesgue measure of the sets of random numbers; product measure for the three draws of an absorption |
| C85 | objects built from a loaded file (`Model/FileScene`: nodes, materials, poses) handed to `compile_scene` | acceptance against `Spec/FileScene.EngineReady`; poses by induction along the parents; the run through `PV.Compile.same_run` |
| C86 | one pass of each tracer whose next surface is the root | case analysis of the pass for every random stream; a world of ink as witness |
| C87 | the curves of `pvtrace/data` over the reals (`Model/Dyes`), `erf` as an integral | positivity and maximum of sums of Gaussians; Gaussian integral for `erf > -1`; numeric bounds for the witnesses |
| C88 | constructors of components (`Model/Component`) | case analysis against `Spec/Component`, tables through `Distribution` |
| C89 | `LSC` configuration as a state machine over calls (`Model/LscScene`) | induction over call sequences against `Spec/LscScene` |
| C90 | the tracer of `Model/Tracer` reading an infinite sequence of numbers; `Spec/Chance`: product of uniform measures; `Spec/Paths`: what surrounds a caught ray | the run is a function of a prefix of the sequence (induction on the step limit); its law by splitting off two numbers at a time; a slab of the concrete scene model satisfies the hypotheses, geometric series give the textbook fractions |
| C91 | messages of a studio run (`Model/StudioLive`): accumulated arrays, payload, labels and extracted paths | accumulated arrays = merged arrays of one run (C24) by induction over bundles; slices by C16; paths by the event log (C20) |
| C92 | plots of the page (`Model/StudioPlot`): heat map image, face overlay, inspector, bars, polar plot, colours | induction over the painting loops; floor arithmetic; witnesses where plot and counts differ |
| C93 | the whole command as a transition system (`Model/DatabaseRun`): workers, queue, writing thread with transactions, main thread; exceptions in each | invariant over reachable states, decreasing measure; witnesses for a failing writer |
| C94 | the payload of the page, three.js decompose/compose and the shapes it draws (`Model/StudioView`), the position written for a dropped node | quaternion identities, `Linked` tables, induction over the tree of nodes |
| C95 | the Python tracer over concrete scenes (`Library.run`), Fresnel surfaces, normals of boxes and rods; isotropic directions as functions of two uniform numbers | a relation `Turn` between consecutive events by `loop_induct`, then induction over the reflections; the shares by integrals over the sphere (`Lemmas/EscapeCone`) |
| C96 | the Python tracer over concrete scenes (`Library.run`); objects as sets of points (`Spec/Arranged`: `Has`, `HasInner`, `Within`, `Medium`) | concrete scenes satisfy the interval specification of C01/C02 (`Nested.Valid`, `Reports`), so `find_container` is right at each pass; a relation `Trip` between consecutive events by induction over the loop; the engine by C09 |
| C97 | the requests of the studio with the disk (`Model/StudioFiles`): `apply` with its temporary file, upload, save, opening; a write is a sequence of disks with growing beginnings of the text | induction over the requests; case analysis of the disks in between; the scene shown is current after an accepted edit (invariant) |
| C98 | `Spec/Batch`: one independent sequence of uniform numbers per ray (product measure over rays), `count` = number of rays for which something happens | recorder `rays` and bins are such counts (C10); linearity of the mean, strong law of large numbers, Hoeffding's inequality (Mathlib); C90 for the slab |
| C99 | A surface written by the user only turns rays | Model/CustomSurface: `CustomDelegate` as three arbitrary state-passing functions with Python-typed answers, `customOps` = the tracer over them; the library's delegates as instances | `custom_lawful` lets the tracer's path theorems apply to any delegate; `loop_induct` with the invariant "unit direction, event on surface" for delegates that keep lengths |
| C100 | The viewer shows every object where it is traced | Model/Meshcat: the viewer as a tree of places with matrices, `pathname`, `levelOrder`, `addGeometry`, `render`, `remove` | path names are injective for well-named graphs, the loop reaches every node, the drawn set is the image of the solid under `transformation_to(root)` = preimage under the tracer's conversion (C46) |
| C101 | Spec/Stream (functions that read numbers from a stream in order), Model/Stream (the tracer and the lights with the state in which they leave the generator, the stage of a library simulation), Lemmas/Stream (renewal: what is left of a stream is fresh and independent; counting independent events), Props/Stream, Props/StreamDemo. | The tracer with generator agrees with the tracer; every random function of the library reads in order (structural proof through tracer, materials, surfaces, lights); renewal by cutting the stream at the number of numbers taken; product formula by induction over the rays; Hoeffding and Borel–Cantelli for the estimates. Demo: a bulb in an empty world. |
| C102 | Spec/Fate (Borel conditions on histories, Borel meshes), Lemmas/Tame (data whose form takes countably many values on measurable sets and whose numbers are measurable), Lemmas/TameScene (shapes, spectra, materials), Lemmas/TameTrace (phase functions, surfaces, lights, the tracer), Props/Measurable, Props/MeasurableDemo. | Structural proof, function by function, that the tracer maps tame data to tame data; the number of numbers taken is recovered from the remaining stream, since almost surely no two tails of a stream are equal; then C98 and C101 without hypotheses. Demo: the slab method is a Borel mesh, the bulb of C101. |
| C103 | Spec/Suited (the four ends, materials that can deal with a set of wavelengths, spectra that suit each other), Props/Ending, Props/EndingDemo. | One pass of the loop raises nothing: C96 gives the interface and its neighbour, C45 the normal, C38 the refracted direction, C33 the component; then induction over the passes. Sufficient conditions on the tables for each emit method; corollary for the engine by C09 without assuming that the tracer finishes. |
| C104 | Spec/Moved (motions of nodes, scenes, rays, histories, log rows), Lemmas/Alike (two tracers that answer alike), Props/Moved, Props/Group, Props/MovedEngine, Props/MovedDemo. | A simulation between two abstract tracers whose answers correspond under the motion, by induction over the passes; the library's answers correspond because every local coordinate is the same. In the scene graph, from the product of the poses along a path. The engine: same simulation for shifts; for turns its re-emission is not carried along. |
| C105 | Spec/Variants (`Reordered`, `Untied`, `Separate`), Lemmas/Embed (a scene among the objects of another), Props/Variants, VariantsDemo, VariantsEngine. | The sorted list of crossings ahead is the same up to the names of the nodes when no two objects are met at the same distance, so every pass picks the same surface, container and neighbour; induction over the passes. For objects whose surfaces have no common point every ray qualifies. With touching objects the order decides (`order_decides`). The engine through its agreement with the Python tracer (C09), and directly without those hypotheses: Lemmas/HitChoice, Props/VariantsKernel (`order_irrelevant_kernel`; what the choice of surface and container depends on, and that renaming nodes commutes with a pass of the kernel), VariantsKernelDemo. |
| C106 | As C105, with `Extended` and `Misses`. | An object whose surface is not on the half-line ahead contributes no crossing. More generally (`OutOfWay`, Props/VariantsKernel, both tracers) an object ahead may be anywhere behind two crossings, or behind the surface of an object about to be entered. Violated as stated: an object further along the line decides what is taken for the medium behind the surface (`bystander_decides`). |
| C107 | As C105, with `OtherWorld`. | For nested and separate objects (`Arranged`) and rays in general position the world's crossing is the last of the list, in both worlds; it is chosen as container or neighbour alike, and its distance is only used when it is the next surface. |
| C108 | Spec/Scaled: a scene, a ray, a row and a recorder call written in another unit (`scaled k`), and `Steady S k ray`, which says that the absolute tolerances of the engine (EPS_ZERO, the band of a cylinder's end, the threshold 1e-8 on the coefficient) decide alike in both units at a ray. | Every formula of the engine is homogeneous in lengths: crossing distances, normals, depth and delay are shown to scale one by one, then a pass of the loop, then by induction the whole trace with its recorder calls. The Python tracer follows by the agreement theorem of C09. The negation is proved for the threshold on the coefficient. |
| C109 | Spec/Reverse: a path is a list of straight legs, each in one medium, that meet at surfaces according to the laws of reflection and refraction (`Turn`, with the probability of the turn); `Path S w legs q` says the legs are a path with probability `q`, `reversed legs` is the path run backwards, and `Follows legs rows` says that a history shows the ray going along the legs. Proved from the geometry of the solids (Lemmas/EngineHit: what the engine finds next on a leg) by induction on the path: the numbers with which the ray follows are those in a list of intervals, one for every number read, whose lengths multiply to `q`; `Turn` and `Path` hold backwards with the same probability. |
| C110 | Model/Spectrum: `bandgap`, `simple_convert_spectum` and `thermodynamic_emission` on arrays of two columns, of floats or of integers (a copy keeps the type of the entries). Spec/Spectrum: the photon energy of a wavelength, the Bose–Einstein law, and what it means that a spectrum is the emission belonging to an absorption (`Emission`). `emission_spec` by induction-free reasoning on the rows and `largest_spec`; `emissivity_falls` from 1 + x ≤ exp x. |
| C111 | Model/Rotations: the Euler angle, quaternion and decomposition functions of `geometry/transformations.py`, with the table of the 24 conventions and the index arithmetic that uses it. Spec/Rotations: the turn about a coordinate axis, the product of turns that a convention's name spells, and Mathlib's quaternions. The 24 conventions by cases; `quaternion_turns` through Mathlib's quaternion algebra; `euler_back_partial` for one convention of each kind, carried to the others by a permutation of the axes; `quaternion_back` from (K - 1)(3K + 1) = 0; `decompose_back_partial` follows the Gram–Schmidt steps of the code. |
| C112 | Model/Stream and Spec/Chance; Spec/Reemission counts events and takes means. Lemmas/Renewal: a program that reads a decided number of numbers leaves independent ones (`split`), so that one draw of the next number may be averaged over. Lemmas/Reemission and Lemmas/Thinning: induction on the passes of the loop, once as a bound (`many_bound`) and once comparing re-emissions with absorptions (`loop_compare`). |
| C113 | Spec/Writes: Borel conditions on lists of writes, and what a ray contributes alone. Lemmas/TameKernel: every function of the engine (intersections, next hit, materials, optics, loop, `tally`) is piecewise measurable in the ray and the random numbers. Props/EngineChance: totals of any execution are sums over rays (C11's lemmas), each ray counts 0 or 1; Hoeffding's inequality and Borel–Cantelli for independent rays with different chances. EngineChanceDemo: in a black ball the share of lost rays tends to `1 - 1/e`. |
| C114 | Spec/EngineReemission: how often an event occurs in a history, and the mean of a count. Lemmas/EngineThinning: the engine's loop over abstract operations; a comparison of two counts that holds at the absorption stage holds for the whole history, by induction on the steps (renewal after each number drawn). Props/EngineReemission: the concrete engine reads its numbers fairly; the yield comparison draws one fresh number; means by summing tails; the balance of absorptions holds for each history and is then averaged. EngineReemissionDemo: one step in a glowing ball has the chance `q (1 - 1/e)` of being re-emitted. |
| C115 | Spec/SameLaw: `Turnable` scenes and Borel conditions on complete histories. Lemmas/Sphere: the surface measure of the sphere does not change under rigid maps (polar coordinates and invariance of volume). Lemmas/IsotropicLaw, TurnedPhase: so isotropic emission followed by a rotation is isotropic emission, jointly with all later numbers; for other phase functions the same for maps that keep the z axis (shift of the azimuth). Lemmas/TurnedTrace: the engine with its directions of re-emission turned into the object's axes; Lemmas/TurnedLaw: its writes have the law of the real engine, by induction on the steps; Lemmas/TurnedAgreement: number by number it agrees with the Python tracer in regular states (as in C09). |
| C116 | `splitext`, `abspath`, the start of `simulate` and the disk at every moment (`Model/DatabaseFile` on top of `Model/DatabaseRun`) | specification of file names (`Spec/FileName`); invariant over all moments; witnesses for shared and self-named databases |
| C117 | `reflection_matrix`, `scale_matrix`, `projection_matrix`, `clip_matrix`, `shear_matrix`, `orthogonalization_matrix`, their `_from_matrix` inverses, `angle_between_vectors`, `concatenate_matrices`, `is_same_transform` (`Model/Matrices`) | planes, mirror images and view volumes without matrices (`Spec/Planes`); algebra over ℝ for every argument; what `numpy.linalg.eig` returns is any eigenvector; witnesses for the parameters that do not come back |
| C118 | engine's `_count` marks (`kTraceOne`, `RecTables`), `EngineResult.recorders`, Python tracer's histories | `Counted` (`Spec/Recorder`) says which events a recorder asks for; `Sided`: surfaces have their object on one side, shown for every history of the Python tracer; induction over the engine's passes, then `same_law` (C115) and the law of large numbers (C113) |
| C119 | a slab (C90) under the engine: its histories, and recorders on the far face and of what is lost | the textbook's transmittance, reflectance, absorptance (`Props/Slab`); almost every sequence of draws is regular (no tie between an absorption and a surface), so C115 and C118 apply |
| C120 | the studio's buttons (`Model/Studio.edit`) followed by reading the file (`Model/Schema`, `Model/SceneFile.parseFile`) | the schema, the component map, the nodes, the tree and the recorders read an appended entry and leave the others as they were; induction over each loop; names of the buttons never meet names of automatic recorders (`Props/StudioAdd`). Not covered: compiling the scene afterwards, and the button for face recorders |
| C121 | what `trace_one` writes to the log (`writesOf (kTraceOne …)`) over concrete scenes (`kOps`) | normals at the engine's intersections are unit vectors; a relation `Turn` between consecutive rows by induction over the passes (`kCut`), then over the reflections; total reflection from C38; the shares from C95 and the invariance of isotropic light under turns (`Props/EngineWaveguide`) |
| C122 | the studio's delete buttons (`Model/Studio.edit`) followed by reading the file | reading commutes with taking entries away: induction over the loops for components, nodes, the tree (fewer parents lead to fewer nodes), automatic and declared recorders; scrubbing a material commutes with picking its components and keeps the schema (`Props/StudioDelete`, `Props/StudioScrub`) |
| C123 | `Scene.light_nodes` and `component_nodes` (level order), the light objects of a file, `Scene.emit` (`Model/FileScene`, `Model/Simulate`, `Model/Stream`) | level order is a permutation of the walk of C78, by induction over the levels; levels are sorted by depth; the children of a node are a sublist; induction over the rays keeping the random numbers in [0, 1) |
| C124 | Model/StudioList (`payloadRecorders`, `deleteButton`) over Model/SceneFile and Model/Studio | the loop over the tree sorts the recorders into the classes of their nodes (`classes`); an undeclared recorder comes from `record: true` of its own node (`nothing_else`, `auto_onNode`); `recorders_listed`, `delete_button` |
| C125 | Spec/Parts (`PartsOf`, `Split`) over Model/Library and Model/Kernel | choosing a component is a walk along the coefficients (`walk`), and a walk past a group of parts is a walk past their sum (`walk_parts`); the tracer's loop commutes with renaming (`loop_parts`); the engine's two scenes are both renamings of one with forgotten coefficients (`split_names`); `python_split`, `engine_split` |
| C126 | Spec/ComponentOrder (`Shuffled`) over Model/Library, Model/Kernel, Model/Stream | the number that chooses a component is integrated out: each component is chosen with chance coefficient / sum whatever its place (`Order.mean_index`, `Order.mean_component`), and the chances of the rest are equal by induction over the passes (`Order.law` for the engine, `Order.python_law` for the tracer); `engine_order`, `recorders_order`, `python_order`, `simulation_order`; `swapped_differs` shows that single runs do change |
| C127 | Model/Stream, Model/Simulate (`emitAt`), Spec/Stream (`tally`), Spec/Chance | ray `i` is the ray of light `i % m` alone (`throw_turn`), so the rays' chances are periodic and their mean is within `m / k` of the mean of a period (`mean_periodic`); with C101/C102/C113: `lights_average`, `lights_error`, `lights_order`, `lights_groups`, `engine_average` |
| C128 | `step_forward` (Model/Tracer) as a loop of passes; the passes that go on are those that end with an event after which the ray travels | induction over the passes with the budget of trips; the shift of clock and distance commutes with every operation of a pass (`Props/Resume`) |
| C129 | Model/Tracer (`body`, `loop`), Model/Kernel (`kBody`, `kLoop`), recorder totals of C113 | a pass under the higher limit is the same pass or the lower limit kills in it; induction over the passes left; engine: the list of `tally` calls of a ray is the same, or a common beginning followed by the call for a kill (`Props/Limits`) |
| C130 | Model/Kernel (`kTraceOne`, `kRay`), Model/KernelTally (`compileRecorders`, `kTally`, `engineResult`) | the writes to the log do not mention the recorder tables (`kRay_writes`); sums over the writes for one recorder depend on its own row alone (`total_ray`, `local_sum`, `local_bin`) (`Props/Passive`) |
| C131 | `Model/EventCounts` (`maskedKinds`, `eventCounts`, `counterAt`) over the engine's memory after any execution | the masked codes are the kinds of the logged rows (`memory_of_ray`), so the counter agrees with `histories_exact`; induction over the cut trace for the balance, a pass writes at most two rows and the budget test leaves room for two |
| C132 | `Model/Mesh` (`meshInit`, `meshIntersections`, `meshNormal`, `meshIsEntering`) over the queries of trimesh as a record `TriLib`; `Spec/Mesh` says what trimesh is trusted with | stable sort; a hit lies on the plane of every face containing it, so the sign of normal · direction is the side of the point inside |
| C133 | First-step equation: `prospect`, `hope`, `hopeEnd`, `onAverage` (Spec/Markov); the chance of a fate is the integral over the next pass of the chance left | splitting the stream behind the numbers a pass has read (`Fair`, `After`), sections of `join`; the step limit shifts with the count; induction over the step limit for `certificate`; the engine via `same_law` (C115) |
| C134 | the websocket handler with its tasks, stop flag, edits and disconnection as a transition system (`Model/StudioRun`), and the page as a fold over the messages | invariants over all interleavings (what a task in each phase has sent; which labels the page has), a decreasing measure per task; witnesses for overlapping runs |
| C135 | `Model/RecorderNodes`: nodes in preorder with and without geometry, the recorders the engine compiles and those evaluated from histories | membership of the filtered, numbered list; uniqueness from the name check; `rec_at` of the compiled tables; witness for lights |
| C136 | `Model/DistFloat`: floats as finite numbers, infinities and NaN with their arithmetic; the tests of `Distribution.__init__` and the two cumulative sums | induction over the sums; NaN and infinity are absorbing; finite tables by bounds on partial sums |
| C137 | Lines on the studio page: `Canvas.add`, `clear`, `show` (Model/StudioPaths) on the messages of `live` | induction over the paths with count = number of lines; induction over the bundles, with the number sent so far, for the first recorded rays |
| C138 | `wavelengthToColor` of the studio page (Model/StudioColour) | the clamp as min and max; case analysis over pairs of cases, linear arithmetic |
| C139 | the wavelength field of a light in the inspector, its edit and the reader of lights (Model/StudioField) | the edit rewrites one key of the light; case analysis over the mask in the reader |
| C140 | the cone field of a light in the inspector, its edit and the reader of lights (Model/StudioField) | the edit rewrites one nested key; lookups of the other keys are unchanged |
| C54 | renderer deque and identifiers | invariant over call sequences; baubles: witness |

Properties that the code violates are kept with their full English statement;
the model gets a theorem with a concrete counterexample and a `_partial`
theorem for the part that holds.

## Disagreements between code and stated properties found while modelling

(filled in below as theorems are proved)
* **C07** `PV.NextHit.adjacent_wrong`: when the ray leaves an object, `next_hit` (and the engine)
  reports as adjacent the owner of the second nearest intersection. If another object lies ahead
  in the same parent, this is that object and not the parent, so the wrong refractive index is
  used at the surface. `adjacent_iff_partial` gives the exact condition.
* **C08** `PV.NextHit.kernel_fallback`: with two or more intersections and no node hit exactly once
  (only possible outside valid scenes) Python raises `ValueError`, the engine carries on.
* **C29** `PV.Dist.hist_starts_above_zero`: the cumulative curve of a histogram distribution starts
  at the weight of the first bin and not at 0, so `lookup` of the first abscissa is positive.
* **C35** `PV.Optics.reflectivity_grazing_nan`: at exactly grazing incidence between equal indices
  the reflectivity is `0/0` in both codes (the ray is then transmitted undeviated).
* **C40** `PV.Optics.shortcut_frame_dependent`: `angle_between` returns 0 when the two vectors are
  `np.allclose`, a test that depends on the frame; Python and the engine can therefore use
  slightly different angles of incidence (less than 2e-5 rad).
* **C30** `PV.Material.redshift_hist_violated`: with a histogram emission spectrum whose last bins
  are empty, `emit_method='redshift'` re-emits at a shorter wavelength. `engine_blueshift_above`:
  above the emission spectrum the engine emits at its end, where Python raises.
  `engine_blueshift_zero`: at `u = 0` on a spectrum that starts with zeros the engine emits at the
  first abscissa.
* **C32** `PV.Material.negative_coefficient`: constant coefficients are not checked, and a negative
  one gives a negative penetration depth. C32 is claimed for non-negative coefficients.
* **C33** `PV.Material.engine_picks_zero`: for `u = 0` the engine selects the first component even
  when its coefficient is zero.
* **C34** `PV.Material.yield_not_checked`: `quantum_yield` outside [0,1] is accepted.
  `absorber_yield`: `Absorber(tau_nr=t)` reports a quantum yield of 1 and `tau_nr = 0` raises.
* **C39** `PV.Phase.hg_zero_raises`: `henyey_greenstein(0.0)` divides by zero in Python; the engine
  falls back to isotropic. For `0 < |g| < 2.2e-13` Python draws one number more than the engine
  (`hg_tiny_extra_draw`).
* **C41** `PV.Phase.emission_differs`: the engine interprets the drawn emission direction in the
  world frame, Python in the frame of the container; they differ for rotated nodes.
* **C43** `PV.Geometry.near_tangent`: Python treats a discriminant below 1e-8 as tangency and reports
  the midpoint of the chord, which is not on the sphere. `small_sphere`: a sphere of radius 1e-5 is
  always treated this way, so a ray inside it never meets its surface in Python; the engine is exact.
* **C44** `PV.Geometry.rim_missed`: a ray towards the rim of a cylinder gets no intersection in Python
  (strict inequalities for caps and side) and one in the engine.
* **C45** `PV.Geometry.edge_raises`: on an edge of a box `normal` raises `GeometryError`.
  `side_point_gets_cap_normal`: points of a cylinder's side within `1e-8 + 1e-5*length/2` of a cap
  plane get the normal of the cap, in both codes.
* **C47** `PV.Pose.integer_pose_truncates`: a pose assigned as an integer matrix truncates a fractional
  location set later. `integer_location_raises`: a node created at an integer location cannot be
  translated by a fraction (NumPy casting error).
* **C48** `PV.Pose.look_at_snaps`: directions within about 0.26 degrees of `(0,0,-1)` are replaced by
  it (`np.isclose(c, -1.0)`). `look_at_unnormalised`: the vector is not normalised. The eigenvector
  used by `rotation_from_matrix` is an oracle (`EigAxis`); for rotations below 1.4e-4 rad the code
  may also accept a complex eigenvector, which is not covered.
* **C55** `PV.Pose.rotate_axis_frame`: the axis of `rotate` is used in the parent's frame, not in the
  node's as documented.
* **C10** `PV.Tally.equal_names_miss_rays`: `tally_histories` remembers which recorders a ray has met
  by recorder name, so two recorders with the same name on different nodes share the memory and the
  second misses rays. The engine rejects duplicate names. C10 is claimed for distinct names.
* **C14** `PV.Tally.below_start_counted`: `int()` truncates towards zero, so values up to one bin width
  below `start` are counted in bin 0 (both codes).
* **C12** `PV.Budget.budget_changes_tallies`: a recorded ray is stopped when its log is full, before it
  is tallied, and a ray that is not recorded goes on. The same run therefore gives different tallies
  for different `record_every` or `max_events`. `tallies_independent_partial`: they agree as long as
  every full history has at most `max_events - 2` events (always for `max_events >= 2*maxsteps + 5`).
* **C19** `PV.Budget.reemission_hides_end`: an absorption followed by re-emission writes two rows in one
  pass; if they fill the log the KILL is dropped and the history ends in EMIT or SCATTER.
  `budget_one`: with `max_events = 1` only GENERATE is kept. `history_complete_partial`: for
  `max_events >= 2` these are the only incomplete histories.
* **C11** `PV.EngineTally.missing_neighbour_differs`: a ray killed because no adjacent node exists is
  counted by `tally_histories` and not by the engine. `same_names_differ`: with two nodes of one name
  `tally_histories` counts the events of both.
* **C24** `PV.Simulate.stream_tallies_differ`, `stream_histories_differ`: `record_every` is counted within
  each bundle, so streaming records other rays than one bundle, and with a reached event budget the
  tallies differ too. `stream_zero_bundle`: `bundle = 0` never ends. `stream_tallies_partial` and
  `stream_histories_partial` give agreement for `record_every = 1` or a sufficient budget.
* **C58** `PV.Simulate.workers_restart_rotation`, `bundles_restart_rotation`: each worker and each bundle
  starts again with the first light, so with small shares later lights are used less or never.
* **C59** `PV.Simulate.equal_seeds_repeat`: the seeds of the workers are drawn independently and not
  compared; workers with equal seeds give equal histories.
* **C23** (edge case) `PV.Simulate.no_lights`: without lights `Scene.emit` raises `ZeroDivisionError`, but
  `emit_bundle` returns rays of zero direction without an error.
* **C25, C27, C60** `PV.Database.reused_process_merges_rays`: rays are numbered by (process id, index
  within the task). A pool process that runs two tasks repeats its pairs, so rays of the second task get
  the throw ids of the first, are counted once and do not advance the progress bar. With one task per
  process everything holds (`histories_recovered_partial`, `count_eq_recorder_partial`, `progress_counts_rays_partial`).
* **C28** `PV.Database.facet_finds_nothing`: no event carries a facet label, so `--facet x` always gives 0.
  `volume_ignores_surface_options`: `count lost --facet x` ignores its option.
  `empty_source_counts_all`: `--source ""` is no filter.
* **C61** `PV.Database.last_ray_not_rendered`: the last ray of each process is never drawn.
* **C62** `PV.Database.reports`: `time lost`, `time reacted` and `time killed` pass a one-dimensional array to
  `handle_output`, which indexes `[:, 1]`: they raise `IndexError` whenever there is a row.
* **C54** `PV.Renderer.one_history_shows_none`: a path is removed as soon as the deque is full, so
  `max_histories - 1` paths are shown, none for `max_histories = 1`. `baubles_stay`: the spheres at events
  are stored under another name than the one removed and stay for ever.
* **C64** `PV.Light.emit_unlimited_is_empty`: `emit()` without a number of rays yields nothing
  (documented: unlimited).
* **C65** `PV.Light.refused_cone_emits`: a cone of half-angle 0 or above pi/2 is refused by `Light.emit`
  and accepted by `emit_bundle`. Henyey-Greenstein lights with |g| < 1e-12 are isotropic in the bundle.
* **C66** `PV.Renderer.absorbed_path_wrong`: the end of the path is recognised by comparing rays by value.
  An absorbed ray ends with two equal rays, so the segment to the absorption point is drawn as a
  stub and another stub is drawn beyond it.
* **C68** `PV.Studio.deleted_recorder_returns`: deleting a declared recorder of a `record: true` node brings the
  automatic recorder of that name back. `face_recorders_drop_histograms`: adding face recorders to such a node
  replaces its automatic recorders by ones without their wavelength and angle histograms.
* **C69** `PV.Run.mixed_scenes`: `run` compiles `studio.scene` for labels and array sizes, waits for the page, and
  then reads `studio.scene` again for tracing. A document applied in between is traced under the old labels.
* **C70** `PV.Run.stopped_run_revived`: the stop flag is shared by all runs of a connection and `run` clears it. A new
  run started before the old one has noticed the flag lets both continue.
* **C53** `PV.Lsc.loss_always_zero`: `simulate` stores only rays whose last event is ABSORB, KILL or EXIT, and no
  history ends in ABSORB. The reported loss is 0 for every run, and (`shortfall`) the counts miss every ray that ended
  non-radiatively or in a reaction. Witness `summary_wrong`.
* **C71** `PV.Lsc.second_simulation_fails`: `store` is bound only if nothing is stored, so every further call of
  `simulate` raises `UnboundLocalError`.
* **C72** `PV.Lsc.near_far_swapped`: cells `near`/`far` sit at y = -w/2 and y = +w/2; `label_facets` names
  these faces `far` and `near`. What a single one of these cells collects is reported as escaped.
* **C73** `PV.Lsc.air_gap_mirror_transparent`: `AirGapMirror.reflected_direction` calls
  `transmitted_direction`; with equal indices the ray goes straight on.
* Read but not modelled in `lsc.py`: `add_scatterer` uses a name that is not imported (NameError); a given
  `wavelength_range` is not stored (AttributeError when default components are made).
* **C74** `PV.Contains.cylinder_one_sided`: `Cylinder.is_on_surface` looks along (1, 1, 1) from the point, so its
  tolerance only covers points before the surface in that direction; these are also `contains`ed.
* **C76** `PV.Compile.too_many_nodes`: more than 128 geometry nodes raise `ValueError` in the kernel.
  `int_coefficient`: a component with an integer coefficient has no distribution; `AttributeError`.
  `overrides_ignored`: shapes and components are recognised with `isinstance`, so methods overridden in user classes
  are silently replaced by the built-in ones. `scale_accepted`: the relative tolerance of `np.allclose` is left at
  1e-5, so scales up to 5e-6 count as rigid. `refused_partial`: everything else is refused as stated.
* **C78** `PV.SceneFile.integer_file`: a CSV file with integer values is an integer array, and assigning the scaled
  spectrum to it truncates: with coefficient 0.5 the component absorbs nothing. `negative_file`: negative values are
  accepted. `integer_coefficient`: `coefficient: 1` makes a component without spectrum (compare C76).
  `range_overshoots`: the range of a named spectrum ends beyond its maximum. `scaled_peak` gives the condition.
* **C79** `PV.SceneFile.constant_scatterer`, `constant_luminophore` (KeyError), `spectrum_alone` (truth value of an
  array), `zero_coefficient`, `point_masks`, `missing_sections`, `short_box`: valid by the schema and refused.
  `loads_partial`: what else has to hold (`Spec/SceneFile.FileReady`). Also read: `wavelength: 0` gives a light whose
  wavelength cannot be called; the schema does not check the `phase-function` of luminophores.
* **C82** `PV.Sampling.uneven_spacing_wrong`: the cumulative function of an interpolated `Distribution` adds the means
  of neighbouring values without the spacing of x. A flat spectrum tabulated at 0, 1 and 3 puts half of its samples
  below 1. `inside_bin_wrong`: between two tabulated wavelengths samples are uniform although the spectrum is
  interpolated linearly. `follows_spectrum_partial`: evenly spaced tables are right at the tabulated wavelengths.
* **C84** `PV.Sampling.histogram_shifted`: strictly between two edges a histogram returns the value of the bin to the
  right.
* **C86** `PV.LastSegment.never_absorbed`, `engine_never_absorbs`: if the next surface is that of the world node the ray
  exits before absorption is considered, whatever the world's material and the random numbers. `ink_transparent`: a ray
  crosses 10 units of ink filling the world and leaves. `faint_never_absorbs`: coefficients up to 1e-8 count as zero.
* **C85** `PV.FileScene.placed` also shows that a location or direction given to the world node of a file is ignored by
  tracing: poses are relative to the world.
* **C87** `PV.Dyes.absorption_depends`: the absorption of Lumogen F Red at 600 nm is 1 in an array of 600 and 700 nm and
  below 0.73 in an array of 580 and 600 nm, because each array is divided by its own maximum. `emission_below_one`: on the
  array of the docstring the emission of Lumogen F Red never reaches its "peak value of 1.0". `emission_above_one`: that
  of Fluro Red exceeds it.
* **C88** `PV.Component.default_emission_fails`: a luminophore without `emission` and `x` is a `ValueError` although the
  documentation promises a Gaussian. `integer_unusable`: `Absorber(1)` is made but has no coefficient.
  `negative_accepted`: negative constants are accepted; the Python tracer fails on them and the engine ignores them.
  `yield_unchecked`: quantum yields outside [0, 1] and negative lifetimes are accepted. `absorber_made`: a non-radiative
  lifetime of 0 is a `ZeroDivisionError`.
* **C89** `PV.Lsc.late_ignored`: lights and components added after the first simulation never reach the scene, but are
  listed as if they did. `scatterer_fails`: `add_scatterer` is always a `NameError`. `range_breaks`: a concentrator given a
  `wavelength_range` has no default dye (`AttributeError`). `failure_sticks`: after a component could not be made every
  later simulation is a `KeyError`.
* **C67** `PV.AutoRecord.rotated_missed`: the face recorders of `record: true` compare their facet with the normal in world
  coordinates, so for a box turned about its vertical axis no recorder counts what leaves through its sides.
  `turned_wrong`: after a quarter turn the light of the local +x side is counted as `north`, without any bin of its heat map.
* **C91** `PV.Live.mean_zero_shown`: for a recorder that counted nothing the page is sent means of 0, where results have none.
* **C92** `PV.Plot.overlay_stretched`: a heat map is stretched over its whole face whatever its ranges.
  `overlay_not_positions`: a heat map over wavelength and angle is painted on the face like one over positions.
  `bar_misread`: bars are drawn with a margin that the inspector ignores, so with 150 bins the first bar is read as the
  second. `polar_dent`: with bins of one degree an isotropic distribution is drawn with a dent at the normal, because the
  sine is not taken below 0.05.
* **C93** `PV.Database.dead_writer_hangs`, `dead_writer_reached`: if the writing thread raises (a locked database, the
  renderer), the main thread waits for ever for the queue to become empty. `ok_but_lost`: if it raises on the last event,
  the command prints OK and the event is missing.
* **C96** `PV.Inside.grazing_absorbed_outside`: a line that only touches a sphere (discriminant at most 1e-8) is reported
  by the Python sphere once, `find_container` takes the sphere for the object around the ray, and the ray is absorbed by
  the material of a ball from which it is still 3 radii away.
* **C97** `PV.Studio.killed_save_loses`: a save empties the file before it writes, so a process killed in between leaves an
  empty document. `upload_not_found`: the studio looks for spectra in the directory it was started in, so an uploaded
  spectrum (written next to the document) is not found from elsewhere. `saved_does_not_load`: for the same reason a
  document accepted and saved by the studio may not load in `pvtrace-cli`. `upload_overwrites_document`: a document
  opened from a `.txt` or `.csv` file is overwritten by an upload of that name.
* **C99** `long_direction_overshoots`: `Surface.reflect`/`transmit` only check that the answer is a tuple of length 3. A vector of another length is used as the ray's direction, so the ray is moved by |d| times the distance to the next surface; a mirror answering `(-2, 0, 0)` makes a ray leave a world of radius 10 at x = -19, with a path length of 13 for a way of 22.
* **C100** `twins_hidden`: siblings with the same name share a path name, so the viewer shows only the last of them. `slash_displaced`: meshcat splits path names at `/`, so an object called `ball/b` is drawn relative to its sibling `ball`. `root_not_shown`: the argument `show_root` is never read.
* **C103** `default_emission_raises`, `default_run_raises`: with the default `emit_method="kT"` a luminophore looks up its emission spectrum at the absorbed wavelength less a thermal shift; if that is below the first knot (always so for the first wavelength of the spectrum) `lookup` raises `ValueError` and the ray is lost, although the wavelength is inside both spectra.
* **C104** `engine_emission_not_turned`, `engine_not_turned`: the engine takes the direction drawn by the phase function as a direction of the world, so when the whole apparatus is turned, a re-emitted or scattered ray keeps the old direction: with the same random numbers a foggy ball turned upside down scatters upwards all the same. Histories of the Python tracer are carried along exactly.
* **C105** `order_decides`: where two objects touch, the one added first is taken for the next surface. A ray inside a ball that touches a glass ball at the point it leaves from is reflected or passes, with the same random numbers, according to which of the balls was added first.
* **C106** `bystander_decides`: on leaving an object the tracer takes the next object along the line for the medium behind the surface, however far away it is. A ray inside a glass ball is reflected at its surface; with a second glass ball four units behind that surface, which the ray never comes near, it is transmitted with the same random numbers.
* **C108** `unit_decides`: a medium whose absorption coefficients add up to at most 1e-8 counts as transparent, whatever the unit of length (also in `Material.penetration_depth`). If lengths are written in a unit k times smaller, with k large enough (k = 1e8 for a coefficient of 1), nothing is absorbed any more, in any scene and for any random numbers. The other absolute tolerances are EPS_ZERO on distances and the band 1e-8 at the ends of a cylinder; for spheres see `small_sphere` (C43).
* **C109** `way_out_free`: light on its way out of the scene is not absorbed by the world, however absorbing it is, while light on its way in is. In a world with coefficient 1 the same three units are passed by every ray outwards and by one ray in twenty inwards.
* **C110** `emission_negative`: at wavelengths whose photon energy is below `mu` (2480 nm for the default 0.5 eV) `thermodynamic_emission` returns negative values, which a sampling distribution cannot use. `emission_integers`: for an array of integers the photon energies are truncated to whole electron volts, so a dye that absorbs at 555 nm is said to emit at 620 nm.
* **C111** `precise_half_turn`, `precise_raises`: `quaternion_from_matrix(…, isprecise=True)` uses the indices 1, 2, 3 where 0, 1, 2 are meant when the trace is not positive. A half turn about the z axis comes back as no turn at all, and one about the x axis raises IndexError. `slerp_spin_long`: with an odd `spin`, `quaternion_slerp` returns a quaternion that is not of length 1 (3 for its square, half way between quaternions at 60 degrees). `decompose_gimbal`: the branch of `decompose_matrix` for gimbal lock tests `math.cos(angles[1])`, which is never 0 for a float, so that for a matrix whose first column is parallel to the z axis one turn is lost. Further, `euler_from_matrix` lower-cases the name of a convention and `euler_matrix` does not.
* **C116** `PV.Database.two_scenes_one_database`: the database is named after the scene without its extension, so `plate.yml`
  and `plate.yaml` have one database.
* **C116** `PV.Database.scene_deleted`: a scene file called `x.sqlite3` is its own database; after consent (`--overwrite`)
  the scene file is deleted and replaced by the database.
* **C116** `PV.Database.old_results_lost`: an old database is removed before the new run starts; if the run fails at its first
  ray, the old results are gone and an empty database is left.
* **C117** `PV.Matrices.depth_reversed`: a pseudo perspective projection is documented to keep relative depth. If the normal points
  towards the perspective point, the order of two points between plane and perspective point is reversed.
* **C117** `PV.Matrices.perspective_lost`: `projection_from_matrix` of a perspective projection onto a plane through the origin divides
  zero by zero.
* **C117** `PV.Matrices.perspective_refused`: `projection_from_matrix` refuses a perspective projection with the perspective point at
  distance 1 in front of a plane not through the origin, since it takes it for a parallel projection.
* **C117** `PV.Matrices.pseudo_mistaken`: `projection_from_matrix(pseudo=True)` may pick an eigenvector outside the plane, and then
  returns another perspective point.
* **C117** `PV.Matrices.shear_lost`: `shear_from_matrix` of a shear by the angle zero divides by zero.
* **C117** `PV.Matrices.shear_volume_changed`: a direction at up to 1e-6 from the plane is accepted as orthogonal to the normal, and the
  shear then changes volumes.
* **C117** `PV.Matrices.same_not_symmetric`: `is_same_transform` depends on the order of its arguments.
* **C122** `PV.StudioDelete.hidden_appears`: a declared recorder may carry the name of another node's automatic recorder and hides it.
  Deleting the declared recorder, or the node it is on, adds the hidden recorder to the scene.
* **C123** `PV.LightOrder.cone_never_shines`, `zero_never_shines`, `dark_never_shines`: scene files whose light has a cone of half angle 0 or above 90 degrees, or wavelength 0, and files without any light pass the schema and load, but every emission raises (`cone` refuses the angle, 0 is not callable, `idx % 0`).
* **C132** `position_lost`, `caller_changed`: `Mesh(trimesh)` subtracts the centre of mass from the vertices in place (mesh.py:17). A mesh does not stand where its file puts it, parts of one assembly exported with common coordinates all land on the origin of their node, and the caller's own trimesh object is moved.
* **C134** `PV.StudioRun.stop_lost`: the page starts a run with a stop and a run command; the run command clears the one stop flag, so for every state of the server the two together do the same as the run command alone, and a run that is going on never sees the stop. `old_shown`, `old_stays`: its bundles are then shown with the labels of the new run, and can be what the page shows in the end. `wrong_labels`: a run is announced with the scene of one moment and traced with the scene of a later one. `no_word`: an exception in a run (arrays of different sizes, tracing raises) ends it without a message; the page waits for ever.
* **C135** `left_out`, `lamp_left_out`: the engine compiles only nodes with a geometry (compiler.py:61-63), so a recorder on a node without one, which both `Node` and scene files accept, is dropped without a word; asking the results for it is a `KeyError`, while `tally_histories` lists it.
* **C54** `no_histories_raises`: a renderer made with `max_histories=0` raises `IndexError` at every path it draws, after drawing it; the lines stay.
* **C97** `PV.Studio.upload_stale`: an upload that replaces a spectrum the document names is stored, but the scene is not read again (server.py:162-175, app.js:1231-1246): until the next edit or apply, runs use the old spectrum while the document and its files describe another scene.
* **C136** `nan_accepted`, `nan_spoils`, `inf_spoils`, `zeros_spoil`: the test is `not np.isfinite(y).any()` where `all` is meant (distribution.py:38). A table with a missing or an infinite value is accepted, and its whole cumulative distribution is NaN (or zero up to the infinite value); a table of zeros is accepted with the same result.
* **C139** `field_idle`, `cleared_raises`: the field reads and writes `light.wavelength` (app.js:744-745), but a wavelength in the mask of the light overrides it (parse.py:195-207): for such a light the field shows 555 or whatever was last committed, and no value committed in it changes the light. An emptied field commits 0, which the reader keeps as a bare number, and emitting the first ray raises.
