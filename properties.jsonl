{"id": "C01", "title": "Ray histories follow the event grammar", "statement": "Every history produced by photon_tracer.step_forward or photon_tracer.follow begins with GENERATE and contains no other GENERATE; EXIT, NONRADIATIVE, REACT and KILL can only be the last event; every ABSORB is directly followed by one of EMIT, SCATTER, NONRADIATIVE, REACT (unless the component raised), and each of those four occurs only directly after an ABSORB.", "quantifier": "every scene, every material, surface and component behaviour, every initial ray, every random stream, every maxsteps and maxpathlength", "why_tests_cant": "Tests trace a handful of seeded rays through two or three scenes; the grammar is a statement about every interleaving of surface and volume events of any length.", "anchors": ["pvtrace/algorithm/photon_tracer.py:step_forward", "pvtrace/algorithm/photon_tracer.py:follow", "pvtrace/light/event.py:Event"]}
{"id": "C02", "title": "Tracing terminates and histories are bounded by maxsteps", "statement": "For every finite maxsteps the tracer stops, and the history holds at most 2*maxsteps + 2 events; at most maxsteps surface or absorption interactions happen, and a ray that still hits something after maxsteps interactions ends with KILL.", "quantifier": "every scene, ray, random stream and maxsteps", "why_tests_cant": "Non-termination only shows up on inputs nobody tried (trapped rays with unit quantum yield); a test that passes only shows that the tried rays stopped.", "anchors": ["pvtrace/algorithm/photon_tracer.py:step_forward"]}
{"id": "C03", "title": "Path length and time of flight never decrease and are accounted for exactly", "statement": "Along every history Ray.travelled and Ray.duration are non-decreasing, travelled grows by exactly the distance propagated, and duration grows by n*d/c for a segment of length d in a medium of index n plus any non-negative lifetime delay. A ray is killed before it starts a segment once travelled > maxpathlength.", "quantifier": "every history with positive refractive indices, every random stream", "why_tests_cant": "Sampled histories cannot show monotonicity for all event sequences.", "anchors": ["pvtrace/light/ray.py:Ray.propagate", "pvtrace/algorithm/photon_tracer.py:step_forward"]}
{"id": "C04", "title": "Rays travel in straight lines between events", "statement": "For consecutive events of a history the second position equals the first position plus the first event's direction times the increase in travelled; EMIT, SCATTER, NONRADIATIVE, REACT and KILL happen at the position of the preceding event.", "quantifier": "every history of every scene whose node transforms are rigid", "why_tests_cant": "Tests check positions on axis-aligned beams with tolerances.", "anchors": ["pvtrace/algorithm/photon_tracer.py:step_forward", "pvtrace/light/ray.py:Ray.propagate", "pvtrace/light/ray.py:Ray.representation"]}
{"id": "C05", "title": "Only emission changes the wavelength; source follows emission", "statement": "Within a history the wavelength changes only at an EMIT event, the direction changes only at REFLECT, TRANSMIT, EMIT or SCATTER, and the source attribute changes only at EMIT or SCATTER.", "quantifier": "every history of every scene using the library's own surfaces and components", "why_tests_cant": "A property of all paths through the tracing loop.", "anchors": ["pvtrace/algorithm/photon_tracer.py:step_forward", "pvtrace/material/component.py:Luminophore.emit", "pvtrace/material/component.py:Scatterer.emit", "pvtrace/material/surface.py:Surface"]}
{"id": "C06", "title": "The container found for a ray is the innermost object around it", "statement": "In a scene of convex objects whose surfaces do not cross (each pair nested or disjoint along the ray), find_container returns the object that contains the ray origin and is the smallest such object.", "quantifier": "every number and nesting of convex objects, every ray position not on a surface, every direction", "why_tests_cant": "Tests use three boxes and one direction; nesting depth and number of objects is unbounded.", "anchors": ["pvtrace/algorithm/photon_tracer.py:find_container", "pvtrace/algorithm/photon_tracer.py:next_hit"]}
{"id": "C07", "title": "The next hit is the nearest surface ahead and adjacent is what lies behind it", "statement": "next_hit reports the nearest intersection ahead of the ray that is not on the ray's own starting surface; for nested or disjoint convex objects the adjacent node is the innermost object just beyond that surface, so container and adjacent are always different.", "quantifier": "every scene of nested or disjoint convex objects and every ray starting inside the root", "why_tests_cant": "The order of intersections depends on arbitrary geometry.", "anchors": ["pvtrace/algorithm/photon_tracer.py:next_hit", "pvtrace/scene/scene.py:Scene.intersections"]}
{"id": "C08", "title": "Compiled engine and Python tracer choose the same interface", "statement": "Given the same per-node intersection distances, the compiled engine picks the same hit node, container, adjacent node and distance as photon_tracer.next_hit, including ties; they can differ only when no node is hit exactly once (Python raises, the engine falls back to the hit node).", "quantifier": "every list of intersections, with any ties, any number of nodes", "why_tests_cant": "Ties and degenerate intersections have probability zero in random tests.", "anchors": ["pvtrace/engine/_kernel.pyx:trace_one", "pvtrace/algorithm/photon_tracer.py:find_container", "pvtrace/algorithm/photon_tracer.py:next_hit"]}
{"id": "C09", "title": "Compiled engine reproduces the Python tracer event for event", "statement": "Fed the same uniform random numbers, the compiled engine records the same event sequence with the same ray state, node and component metadata as the Python tracer, for supported scenes, up to the engine's event budget.", "quantifier": "every supported scene, ray, random stream and maxsteps; every length of history", "why_tests_cant": "The test-suite compares mean event counts within five standard errors on two scenes; it cannot see a difference that is rare or that cancels in the mean.", "anchors": ["pvtrace/engine/_kernel.pyx:trace_one", "pvtrace/algorithm/photon_tracer.py:step_forward"]}
{"id": "C10", "title": "Recorder counts are consistent", "statement": "For every recorder rays <= crossings, rays <= number of traced rays, and the total of each histogram is at most rays; rays equals the number of rays having at least one matching event and crossings the number of matching events.", "quantifier": "every set of histories and every set of recorders with distinct names (names identify the results; the engine enforces it)", "why_tests_cant": "Consistency over all event sequences including trapped rays that cross many times.", "anchors": ["pvtrace/engine/tally.py:tally_histories", "pvtrace/engine/_kernel.pyx:tally", "pvtrace/engine/api.py:RecorderResult"]}
{"id": "C11", "title": "Engine recorders agree with tally_histories on the engine's own histories", "statement": "For every scene and seed, the tallies the engine accumulates while tracing equal tally_histories applied to EngineResult.histories() when every ray is recorded (record_every=1).", "quantifier": "every scene, every set of recorders, every ray bundle", "why_tests_cant": "The test does this for one scene and one seed.", "anchors": ["pvtrace/engine/tally.py:tally_histories", "pvtrace/engine/_kernel.pyx:tally", "pvtrace/engine/_kernel.pyx:trace_one"]}
{"id": "C12", "title": "Recorder tallies do not depend on history sampling", "statement": "Recorder results are the same whatever record_every and max_events are chosen.", "quantifier": "every scene, seed, record_every and max_events", "why_tests_cant": "The suite compares three settings on one scene whose histories fit the budget.", "anchors": ["pvtrace/engine/_kernel.pyx:trace_one", "pvtrace/engine/api.py:simulate"]}
{"id": "C13", "title": "Engine results do not depend on the number of workers or thread schedule", "statement": "For a fixed seed, bundle and settings, the event log and the integer recorder tallies are the same for every number of threads and every assignment of rays to threads in any order.", "quantifier": "every worker count and every schedule (interleaving of rays over threads)", "why_tests_cant": "Schedules are not controllable in a test; two runs sample two of them.", "anchors": ["pvtrace/engine/_kernel.pyx:trace_bundle"]}
{"id": "C14", "title": "Histogram binning matches the reported bin edges", "statement": "A recorded value v is counted in bin k of a histogram exactly when edges[k] <= v < edges[k+1]; values outside [start, stop) are not counted.", "quantifier": "every start < stop, number of bins and value", "why_tests_cant": "Boundary behaviour below start is not exercised by any test.", "anchors": ["pvtrace/engine/tally.py:_bin_index", "pvtrace/engine/_kernel.pyx:tally", "pvtrace/engine/api.py:RecorderResult.histogram"]}
{"id": "C15", "title": "Recorder mean and standard deviation are the sample statistics", "statement": "RecorderResult.mean is the arithmetic mean, and RecorderResult.std the population standard deviation, of the property over the distinct recorded rays; the clamped variance is never negative.", "quantifier": "every non-empty list of recorded values", "why_tests_cant": "Algebraic identity over all lists.", "anchors": ["pvtrace/engine/api.py:RecorderResult.mean", "pvtrace/engine/api.py:RecorderResult.std", "pvtrace/engine/tally.py:_TallyState.accumulate"]}
{"id": "C16", "title": "Histogram storage of different recorders never overlaps", "statement": "The storage slices assigned to all histograms of all recorders are pairwise disjoint, lie inside the bin array, and together cover it exactly; an increment for one histogram never changes another histogram.", "quantifier": "every list of recorders with any histograms and heatmaps", "why_tests_cant": "Overlap only shows for particular combinations of sizes.", "anchors": ["pvtrace/engine/compiler.py:_compile_recorders", "pvtrace/engine/api.py:EngineResult.recorders", "pvtrace/engine/_kernel.pyx:tally"]}
{"id": "C17", "title": "The event log never writes out of bounds and rays never share rows", "statement": "Every row the engine writes lies inside the allocated arrays, and two different recorded rays never write the same row, for every bundle size, record_every and max_events.", "quantifier": "every number of rays, record_every >= 1, max_events, schedule", "why_tests_cant": "The kernel is compiled with bounds checking off; out-of-bounds writes are silent.", "anchors": ["pvtrace/engine/_kernel.pyx:record", "pvtrace/engine/_kernel.pyx:trace_bundle"]}
{"id": "C18", "title": "EngineResult.histories returns what was recorded", "statement": "The j-th history yielded is exactly the sequence of events recorded for ray j*record_every, in order, with that ray's source; num_recorded and recorded_indices agree, and there are ceil(num_rays/record_every) of them (none when record_every = 0).", "quantifier": "every bundle size, record_every and history lengths", "why_tests_cant": "Round-trip over all layouts.", "anchors": ["pvtrace/engine/api.py:EngineResult.histories", "pvtrace/engine/api.py:EngineResult.recorded_indices", "pvtrace/engine/_kernel.pyx:record"]}
{"id": "C19", "title": "Recorded engine histories are complete", "statement": "A history recorded by the engine ends with a terminal event (EXIT, NONRADIATIVE, REACT or KILL) whenever the ray still met a surface; exhaustion of the event budget is reported as KILL, never by silently dropping events.", "quantifier": "every scene, ray, random stream and max_events", "why_tests_cant": "Needs an absorption to land exactly on the budget boundary.", "anchors": ["pvtrace/engine/_kernel.pyx:trace_one", "pvtrace/engine/_kernel.pyx:record"]}
{"id": "C20", "title": "Engine random numbers are uniform-grid values in [0,1)", "statement": "Every random number the engine draws is k/2^53 with 0 <= k < 2^53, hence in [0,1), so logarithms and inverse cdf lookups in the kernel are defined.", "quantifier": "all 2^256 generator states", "why_tests_cant": "State space cannot be enumerated.", "anchors": ["pvtrace/engine/_kernel.pyx:rng_uniform"]}
{"id": "C21", "title": "Different rays get different random streams", "statement": "For a fixed seed, any two different ray indices of a bundle give different generator states, no seed yields the all-zero state, and the generator never reaches the all-zero state; the generator step is invertible so distinct streams never merge.", "quantifier": "all 2^64 seeds, all ray indices, all numbers of draws", "why_tests_cant": "64-bit seed space.", "anchors": ["pvtrace/engine/_kernel.pyx:rng_seed", "pvtrace/engine/_kernel.pyx:_splitmix64", "pvtrace/engine/_kernel.pyx:rng_uniform"]}
{"id": "C22", "title": "Scene.simulate traces exactly the requested number of rays", "statement": "For every number of rays and workers, the work is split so that the per-worker counts sum to num_rays, no worker gets a negative count, and the returned list has one history per ray; giving a seed with more than one process raises ValueError.", "quantifier": "every num_rays, workers and seed", "why_tests_cant": "Tests use os.cpu_count() and 16 rays.", "anchors": ["pvtrace/scene/scene.py:Scene.simulate", "pvtrace/scene/scene.py:do_simulation"]}
{"id": "C23", "title": "Lights are used in strict rotation", "statement": "Scene.emit(n) yields exactly n rays, the i-th coming from light i mod L, so each light emits floor(n/L) or ceil(n/L) rays; the engine's emit_bundle assigns the same light to the same row.", "quantifier": "every number of lights L >= 1 and rays n", "why_tests_cant": "Arithmetic over all n and L.", "anchors": ["pvtrace/scene/scene.py:Scene.emit", "pvtrace/engine/emit.py:emit_bundle"]}
{"id": "C24", "title": "Streaming covers each ray once with consecutive seeds", "statement": "simulate_stream traces bundles whose sizes sum to num_rays, each at most bundle, and the per-ray seeds over all bundles are seed, seed+1, ..., seed+num_rays-1 in order; recorder tallies summed over bundles equal those of one bundle of the same rays.", "quantifier": "every num_rays and bundle size", "why_tests_cant": "Arithmetic over all sizes.", "anchors": ["pvtrace/engine/api.py:simulate_stream"]}
{"id": "C25", "title": "The results database contains every traced event exactly once", "statement": "When pvtrace-cli simulate stops, each event queued by the workers has been written exactly once and in queue order, whatever the interleaving of worker processes, and events of different rays get different throw ids.", "quantifier": "every interleaving of the workers' queue items and every assignment of tasks to pool processes", "why_tests_cant": "Queue interleavings and pool scheduling are decided by the operating system.", "anchors": ["pvtrace/cli/main.py:monitor_queue", "pvtrace/cli/main.py:write_event", "pvtrace/scene/scene.py:do_simulation_add_to_queue"]}
{"id": "C26", "title": "Counting queries are unaffected by storing only end rays", "statement": "pvtrace-cli count, spectrum and time answers are the same whether all events or only the end-ray events of each history were stored; the end-ray filter keeps the first event and the terminal event of every history.", "quantifier": "every history and every query with every filter combination", "why_tests_cant": "All histories and filters.", "anchors": ["pvtrace/scene/scene.py:is_end_ray", "pvtrace/scene/scene.py:do_simulation_add_to_queue", "pvtrace/cli/db.py"]}
{"id": "C27", "title": "CLI counts equal recorder counts", "statement": "pvtrace-cli count entering/escaping/reflected/lost/reacted/killed for a node equals the `rays` value of the recorder with the same event on that node, computed from the same histories.", "quantifier": "every set of histories, every node", "why_tests_cant": "Two independent implementations (SQL and Python) over all histories.", "anchors": ["pvtrace/cli/db.py", "pvtrace/cli/count.py", "pvtrace/engine/tally.py:_matches"]}
{"id": "C28", "title": "Adding a filter never increases a CLI count", "statement": "For every count query, adding a facet or source filter can only lower the count, and a count is never larger than the number of rays thrown.", "quantifier": "every database content and filter", "why_tests_cant": "All databases.", "anchors": ["pvtrace/cli/db.py:_boundary_query", "pvtrace/cli/db.py:_volume_query"]}
{"id": "C29", "title": "Distribution cdf is a cdf and sampling stays in range", "statement": "For every accepted Distribution with non-negative values the cumulative function runs monotonically from 0 to 1 over [xmin, xmax]; sample(p) for p in [0,1] lies in [xmin, xmax] and is monotone in p; lookup and sample are inverse to each other where the cdf is strictly increasing; out-of-range arguments raise ValueError.", "quantifier": "every table of any length and every argument", "why_tests_cant": "All tables.", "anchors": ["pvtrace/material/distribution.py:Distribution.lookup", "pvtrace/material/distribution.py:Distribution.sample", "pvtrace/material/distribution.py:Distribution.__init__"]}
{"id": "C30", "title": "Redshift emission never blue-shifts", "statement": "With emit_method 'redshift' an emitted ray's wavelength is never shorter than the absorbed one, in both tracers; with 'kT' its energy exceeds the absorbed energy by at most the thermal allowance.", "quantifier": "every emission spectrum, absorbed wavelength and random number", "why_tests_cant": "All tables and wavelengths; the failure needs an absorbed wavelength outside the emission table.", "anchors": ["pvtrace/material/component.py:Luminophore.emit", "pvtrace/engine/_kernel.pyx:trace_one"]}
{"id": "C31", "title": "Spectral interpolation is exact at the knots and bounded between them", "statement": "The engine's table lookup returns the tabulated value at each knot, a value between the neighbouring values in between, the edge value outside, and agrees with linear interpolation (numpy.interp) everywhere for strictly increasing tables; its search loop terminates and never reads outside the table.", "quantifier": "every strictly increasing table of any length >= 1 and every argument", "why_tests_cant": "All table sizes; loops compiled without bounds checks.", "anchors": ["pvtrace/engine/_kernel.pyx:interp_clamped"]}
{"id": "C32", "title": "Absorption happens strictly inside the segment", "statement": "A sampled penetration depth is never negative, a non-absorbing material never absorbs, and when a ray is absorbed the event lies on the segment between the previous event and the surface it would have hit.", "quantifier": "every material with non-negative coefficients, wavelength, random number and distance", "why_tests_cant": "All random numbers including 0.", "anchors": ["pvtrace/material/material.py:Material.penetration_depth", "pvtrace/material/material.py:Material.is_absorbed", "pvtrace/engine/_kernel.pyx:trace_one"]}
{"id": "C33", "title": "The absorbing component is chosen in proportion to its coefficient", "statement": "The set of random numbers selecting component i is an interval of length alpha_i / sum(alpha); in particular a component with zero coefficient at the wavelength is never selected, in either tracer.", "quantifier": "every number of components, non-negative coefficients with positive sum, and every random number in [0,1)", "why_tests_cant": "Endpoints have probability zero.", "anchors": ["pvtrace/material/material.py:Material.component", "pvtrace/engine/_kernel.pyx:trace_one"]}
{"id": "C34", "title": "Quantum yields are probabilities and decide emission", "statement": "The quantum yield of every component is in [0,1] whichever of quantum_yield, tau_rad and tau_nr is given; a component with yield 1 always re-emits, one with yield 0 (and every Absorber and Reactor) never does.", "quantifier": "every combination of constructor arguments and random number", "why_tests_cant": "All combinations.", "anchors": ["pvtrace/material/component.py:Scatterer.__init__", "pvtrace/material/component.py:Scatterer.is_radiative", "pvtrace/material/component.py:Absorber.is_radiative"]}
{"id": "C35", "title": "Fresnel reflectivity is a probability and obeys the optical laws", "statement": "For positive indices and incidence angle in [0, pi/2), reflectivity is in [0,1]; it is 1 beyond the critical angle, ((n1-n2)/(n1+n2))^2 at normal incidence, 0 for equal indices, and the same for the reversed path.", "quantifier": "every n1, n2 > 0 and angle", "why_tests_cant": "Continuum of angles and indices.", "anchors": ["pvtrace/material/utils.py:fresnel_reflectivity", "pvtrace/engine/_kernel.pyx:fresnel_reflectivity"]}
{"id": "C36", "title": "Specular reflection obeys the law of reflection", "statement": "The reflected direction is a unit vector, makes the same angle with the normal on the same side, lies in the plane of incidence, does not depend on the sign of the normal, and reflecting twice restores the direction.", "quantifier": "every unit direction and unit normal", "why_tests_cant": "Continuum.", "anchors": ["pvtrace/material/utils.py:specular_reflection", "pvtrace/engine/_kernel.pyx:specular_reflect"]}
{"id": "C37", "title": "Refraction obeys Snell's law", "statement": "Below the critical angle the refracted direction is a unit vector in the plane of incidence on the far side of the surface with n1 sin(theta1) = n2 sin(theta2); the refraction is reversible; with equal indices it is undeviated.", "quantifier": "every unit direction, unit normal, and indices without total internal reflection", "why_tests_cant": "Continuum.", "anchors": ["pvtrace/material/utils.py:fresnel_refraction", "pvtrace/engine/_kernel.pyx:fresnel_refract"]}
{"id": "C38", "title": "Total internal reflection is consistent with refraction", "statement": "Whenever a surface interaction transmits a ray with positive probability the refraction formula has a real solution, so transmitted directions are never NaN.", "quantifier": "every unit direction, normal and indices", "why_tests_cant": "Boundary at the critical angle.", "anchors": ["pvtrace/material/surface.py:FresnelSurfaceDelegate", "pvtrace/engine/_kernel.pyx:trace_one"]}
{"id": "C39", "title": "Phase functions return unit vectors in the stated set", "statement": "isotropic, henyey_greenstein, cone and lambertian return unit vectors for all random numbers; cone directions are within the half-angle of +z, lambertian directions have non-negative z, and the Henyey-Greenstein cosine is in [-1,1] for 0 < |g| < 1.", "quantifier": "every parameter and random number", "why_tests_cant": "Continuum.", "anchors": ["pvtrace/material/utils.py:isotropic", "pvtrace/material/utils.py:henyey_greenstein", "pvtrace/material/utils.py:cone", "pvtrace/material/utils.py:lambertian", "pvtrace/engine/_kernel.pyx:sample_phase"]}
{"id": "C40", "title": "Surface physics is frame independent", "statement": "Computing reflection, refraction and reflectivity in the hit node's local frame and transforming back (Python) gives the same result as computing in the world frame (engine), for every rigid placement of the node.", "quantifier": "every rotation and translation of a node, every direction and normal", "why_tests_cant": "Continuum of poses.", "anchors": ["pvtrace/algorithm/photon_tracer.py:step_forward", "pvtrace/engine/_kernel.pyx:trace_one"]}
{"id": "C41", "title": "Emission directions follow the orientation of the containing object in both tracers", "statement": "A directional phase function (cone, Henyey-Greenstein) emits relative to the axes of the containing object, so both tracers give the same world direction for the same random numbers.", "quantifier": "every node orientation", "why_tests_cant": "Needs an anisotropic emitter inside a rotated node.", "anchors": ["pvtrace/algorithm/photon_tracer.py:step_forward", "pvtrace/engine/_kernel.pyx:sample_phase"]}
{"id": "C42", "title": "Box intersections are exactly the entry and exit points", "statement": "For a ray and a box, the distances reported by the engine are the ends of the interval of parameters for which the ray is inside the box (those more than EPS_ZERO ahead of the ray), and nothing is reported exactly when no point of the box lies ahead of the ray.", "quantifier": "every box size, ray origin and unit direction including axis-parallel ones (components zero or at least 1e-300); the Python box is delegated to trimesh", "why_tests_cant": "Continuum, with degenerate axis-parallel cases.", "anchors": ["pvtrace/engine/_kernel.pyx:intersect_box"]}
{"id": "C43", "title": "Sphere intersections are exactly the points on the sphere", "statement": "Reported points lie on the sphere and every forward point of the line on the sphere is reported, in order of distance; entry and exit bracket the inside interval.", "quantifier": "every radius, origin and direction", "why_tests_cant": "Continuum, tangent case.", "anchors": ["pvtrace/geometry/sphere.py:Sphere.intersections", "pvtrace/engine/_kernel.pyx:intersect_sphere"]}
{"id": "C44", "title": "Cylinder intersections are exactly the points on the closed cylinder surface", "statement": "Reported points lie on the side or the caps and every forward point of the line on the surface is reported once.", "quantifier": "every length, radius, origin and direction", "why_tests_cant": "Continuum; rim hits.", "anchors": ["pvtrace/geometry/utils.py:ray_z_cylinder", "pvtrace/engine/_kernel.pyx:intersect_cylinder"]}
{"id": "C45", "title": "Surface normals are outward unit vectors", "statement": "At every surface point of a box, sphere or cylinder the normal is a unit vector pointing out of the solid; is_entering is true exactly for directions into the solid.", "quantifier": "every point on the surface away from edges (farther than the comparison tolerances: EPS_ZERO for a box, 1e-8 + 1e-5*length/2 for the side of a cylinder)", "why_tests_cant": "Continuum.", "anchors": ["pvtrace/geometry/box.py:Box.normal", "pvtrace/geometry/sphere.py:Sphere.normal", "pvtrace/geometry/cylinder.py:Cylinder.normal", "pvtrace/engine/_kernel.pyx:local_normal"]}
{"id": "C46", "title": "Coordinate conversion between nodes is consistent", "statement": "Converting a point or vector from one node to another and back is the identity, conversion through an intermediate node equals direct conversion, point differences convert as vectors, and with rigid poses distances, lengths and angles are preserved.", "quantifier": "every tree of nodes and every pair of nodes", "why_tests_cant": "Unbounded trees.", "anchors": ["pvtrace/scene/node.py:Node.transformation_to", "pvtrace/scene/node.py:Node.point_to_node", "pvtrace/scene/node.py:Node.vector_to_node"]}
{"id": "C47", "title": "A node's location always equals the translation of its pose", "statement": "After any sequence of setting location or pose, translating and rotating, location equals the translation part of the pose, rotate leaves location unchanged, and the pose stays rigid if every assigned pose was rigid.", "quantifier": "every sequence of operations", "why_tests_cant": "Unbounded operation sequences.", "anchors": ["pvtrace/geometry/transformable.py:Transformable"]}
{"id": "C48", "title": "look_at points the node's z axis at the target direction", "statement": "After look_at(v) on a node with unrotated pose, the local direction (0,0,1) maps to v in the parent frame and the orientation is a proper rotation, for every unit vector v including the antiparallel one.", "quantifier": "every unit vector", "why_tests_cant": "Continuum with a singular direction.", "anchors": ["pvtrace/scene/node.py:Node.look_at"]}
{"id": "C49", "title": "Colours are valid hex integers", "statement": "rgb_to_hex_int returns r*65536+g*256+b with each channel clamped to 0..255, so the result is in 0..0xFFFFFF and distinct clamped colours give distinct integers.", "quantifier": "every rgb triple of integers", "why_tests_cant": "All triples.", "anchors": ["pvtrace/light/utils.py:rgb_to_hex_int", "pvtrace/light/utils.py:wavelength_to_hex_int"]}
{"id": "C50", "title": "Light masks emit inside the stated aperture", "statement": "rectangular_mask, circular_mask and cube_mask return points inside the stated rectangle, disc or cuboid for all random numbers.", "quantifier": "every size and random number", "why_tests_cant": "Continuum.", "anchors": ["pvtrace/light/light.py:rectangular_mask", "pvtrace/light/light.py:circular_mask", "pvtrace/light/light.py:cube_mask"]}
{"id": "C51", "title": "Studio edits keep the scene document consistent", "statement": "A new name given to an added node, component or recorder is always unused; deleting a component removes every reference to it; a patch that fails to parse or compile leaves the current scene unchanged.", "quantifier": "every document and sequence of patches", "why_tests_cant": "Unbounded documents and sequences.", "anchors": ["pvtrace/studio/server.py:_unique_name", "pvtrace/studio/server.py:_patch", "pvtrace/studio/server.py:Studio.apply"]}
{"id": "C52", "title": "Auto-instrumentation never overrides or duplicates recorders", "statement": "record: true adds the default recorders with distinct names derived from the node and never replaces an explicitly declared recorder with the same name.", "quantifier": "every scene document", "why_tests_cant": "All documents.", "anchors": ["pvtrace/cli/parse.py:auto_recorders", "pvtrace/cli/parse.py:parse_recorders"]}
{"id": "C53", "title": "LSC reports account for every ray", "statement": "After LSC.simulate every traced ray is counted in exactly one of the reported categories (escaping a facet, lost, ...), so the reported counts add up to the number of thrown rays.", "quantifier": "every device and set of histories", "why_tests_cant": "Conservation over all histories.", "anchors": ["pvtrace/device/lsc.py:LSC.simulate", "pvtrace/device/lsc.py:LSC.spectrum", "pvtrace/device/lsc.py:LSC.counts"]}
{"id": "C54", "title": "The renderer keeps at most max_histories ray paths", "statement": "MeshcatRenderer.add_history draws identifiers that are never reused and keeps the number of drawn paths bounded by max_histories, removing every object of an evicted path.", "quantifier": "every sequence of add_history calls", "why_tests_cant": "Unbounded sequences.", "anchors": ["pvtrace/scene/renderer.py:MeshcatRenderer.add_history", "pvtrace/scene/renderer.py:MeshcatRenderer.get_next_identifer"]}
{"id": "C55", "title": "rotate turns the node about an axis given in its own coordinate system", "statement": "rotate(angle, axis) leaves in place the direction that axis denotes in the node's own coordinate system, as documented.", "quantifier": "every node orientation, angle and axis", "why_tests_cant": "Tests rotate fresh nodes, for which the node's and the parent's axes coincide; the frames differ only after earlier rotations.", "anchors": ["pvtrace/geometry/transformable.py:Transformable.rotate"]}
{"id": "C56", "title": "Surface events lie on the surface they name", "statement": "Every REFLECT, TRANSMIT and EXIT event of a traced ray has its position on the surface of the node named in its metadata as hit.", "quantifier": "every scene of boxes, spheres and cylinders, every ray, every random stream, any number of steps", "why_tests_cant": "Depends on every pass of an unbounded random walk; tests look at a few positions.", "anchors": ["pvtrace/algorithm/photon_tracer.py:step_forward", "pvtrace/geometry/sphere.py:Sphere", "pvtrace/geometry/cylinder.py:Cylinder", "pvtrace/scene/scene.py:Scene.intersections"]}
{"id": "C57", "title": "Directions stay unit vectors", "statement": "If the generated ray has a direction of length one, every ray in the history has a direction of length one, whatever reflections, refractions, scatterings and re-emissions happened.", "quantifier": "every scene, ray, random stream and number of steps", "why_tests_cant": "An invariant over unbounded histories and all optics branches.", "anchors": ["pvtrace/algorithm/photon_tracer.py:step_forward", "pvtrace/material/utils.py:fresnel_refraction", "pvtrace/material/utils.py:specular_reflection", "pvtrace/scene/node.py:Node.vector_to_node"]}
{"id": "C58", "title": "Lights take turns over the whole run", "statement": "However a run is divided over workers or bundles, ray i of the run comes from light i mod L.", "quantifier": "every number of lights, rays, workers and every bundle size", "why_tests_cant": "Tests use one light; the split changes the assignment only for several lights.", "anchors": ["pvtrace/scene/scene.py:Scene.simulate", "pvtrace/scene/scene.py:do_simulation", "pvtrace/scene/scene.py:Scene.emit", "pvtrace/engine/api.py:simulate_stream"]}
{"id": "C59", "title": "Workers never repeat each other's rays", "statement": "In a parallel run two workers never trace the same sequence of rays.", "quantifier": "every number of workers, every outcome of the seed drawing", "why_tests_cant": "A collision of the drawn seeds is improbable in any given test run.", "anchors": ["pvtrace/scene/scene.py:Scene.simulate", "pvtrace/scene/scene.py:do_simulation"]}
{"id": "C60", "title": "The progress bar counts each ray once", "statement": "When pvtrace-cli simulate has written all events, the progress bar has advanced exactly once per ray, whatever the order in which events of different workers arrive.", "quantifier": "every interleaving of the workers' items, every assignment of tasks to processes", "why_tests_cant": "The order is decided by the operating system.", "anchors": ["pvtrace/cli/main.py:monitor_queue"]}
{"id": "C61", "title": "Rays drawn live are complete histories", "statement": "Every path that pvtrace-cli simulate sends to the renderer is the complete stored history of one ray; events of different rays are never mixed.", "quantifier": "every interleaving of the workers' items, every render_every", "why_tests_cant": "The order is decided by the operating system.", "anchors": ["pvtrace/cli/main.py:monitor_queue"]}
{"id": "C62", "title": "Reports list the samples found", "statement": "Whenever a spectrum or time query of the command line has rows, the command outputs the sample of each row.", "quantifier": "every database and every report command", "why_tests_cant": "Twelve commands over all databases; the tests call the SQL builders only.", "anchors": ["pvtrace/cli/time.py:handle_output", "pvtrace/cli/time.py:lost", "pvtrace/cli/spectrum.py:handle_output"]}
{"id": "C63", "title": "Light apertures are filled uniformly", "statement": "Rectangular, cuboid and circular masks fill their aperture uniformly: the share of random numbers that places the emission point in a sub-rectangle, sub-cuboid or concentric disc is its share of the length, volume or area.", "quantifier": "every size and every sub-region of these kinds", "why_tests_cant": "A statement about a measure on all random numbers; sampling tests only bound it statistically.", "anchors": ["pvtrace/light/light.py:rectangular_mask", "pvtrace/light/light.py:circular_mask", "pvtrace/light/light.py:cube_mask"]}
{"id": "C64", "title": "A light emits the number of rays asked for", "statement": "Light.emit(num_rays=n) yields n rays (fewer only if a delegate raises), each from the next random numbers; without num_rays it is unlimited as documented.", "quantifier": "every light, every n and every random stream", "why_tests_cant": "All n and streams, and an infinite iterator.", "anchors": ["pvtrace/light/light.py:Light.emit"]}
{"id": "C65", "title": "The engine emits what the lights emit", "statement": "emit_bundle gives for each built-in wavelength, position and direction delegate the ray that Light.emit gives from the same random numbers, and refuses what Light.emit refuses.", "quantifier": "every light with built-in delegates, bundle size and random stream", "why_tests_cant": "Two implementations compared over a continuum of parameters and numbers.", "anchors": ["pvtrace/engine/emit.py:emit_bundle", "pvtrace/light/light.py:Light.emit"]}
{"id": "C66", "title": "Drawn paths follow the recorded paths", "statement": "add_history draws one segment for each pair of consecutive events, from position to position; only the last is replaced by one of the length asked for, or with world_segment='exclude' everything from EXIT on is left out.", "quantifier": "every history and option", "why_tests_cant": "All histories; no test inspects the drawn geometry.", "anchors": ["pvtrace/scene/renderer.py:MeshcatRenderer.add_history"]}
{"id": "C67", "title": "record: true covers the whole surface of a box once", "statement": "For a box with `record: true`, the automatic face recorders are six, one for each face; each spans its face exactly, and what leaves through any point of the surface off the edges is counted by exactly one of them, that of its face, wherever the box stands and however it is turned.", "quantifier": "every box size, every name, every declared recorder, every position and rotation of the box and every surface point off the edges", "why_tests_cant": "All sizes, poses and surface points.", "anchors": ["pvtrace/cli/parse.py:auto_recorders"]}
{"id": "C68", "title": "Editing an automatic recorder in the studio changes only what was edited", "statement": "Updating a recorder that exists only through `record: true` writes an entry into the document that parses back to the same recorder (event, facet, histograms), with just the requested changes; other entries are untouched. Deleting a recorder removes it.", "quantifier": "every document, recorder and change", "why_tests_cant": "Round trip over all recorders and documents.", "anchors": ["pvtrace/studio/server.py:_patch", "pvtrace/studio/server.py:_recorder_to_spec"]}
{"id": "C69", "title": "A studio run reports one scene", "statement": "Each run started from the studio page sends the recorders of one scene, and after k bundles the totals of the first k bundles of that same scene; a run that is not stopped sends all its bundles and the end message, whatever documents are applied meanwhile.", "quantifier": "every schedule of edits, runs, stops and resumptions of tasks on the event loop", "why_tests_cant": "Interleavings of requests at await points.", "anchors": ["pvtrace/studio/server.py:create_app", "pvtrace/engine/api.py:simulate_stream"]}
{"id": "C70", "title": "Stop ends a studio run", "statement": "After a stop message no run that was going on sends another bundle.", "quantifier": "every schedule of edits, runs, stops and resumptions", "why_tests_cant": "Interleavings of messages and tasks.", "anchors": ["pvtrace/studio/server.py:create_app"]}
{"id": "C71", "title": "LSC simulations accumulate", "statement": "LSC.simulate can be called several times: each call adds its rays to those already stored, and counts and summary then describe all of them.", "quantifier": "every device and sequence of simulate, counts and summary calls", "why_tests_cant": "All call sequences.", "anchors": ["pvtrace/device/lsc.py:LSC.simulate", "pvtrace/device/lsc.py:LSC.counts"]}
{"id": "C72", "title": "A solar cell collects what leaves through its facet", "statement": "A ray that reaches a facet with a solar cell is never reflected and goes straight on; it is counted at the facet of that name, hence as collected. Facets without a cell or mirror are Fresnel surfaces.", "quantifier": "every device size, set of cells, ray and point of the surface", "why_tests_cant": "All sizes, points and directions.", "anchors": ["pvtrace/device/lsc.py:OptionalMirrorAndSolarCell", "pvtrace/device/lsc.py:LSC.label_facets", "pvtrace/device/lsc.py:LSC.summary"]}
{"id": "C73", "title": "LSC mirrors reflect", "statement": "Every ray that reaches a back-surface mirror or an air-gap mirror is sent back.", "quantifier": "every ray, normal and refractive index", "why_tests_cant": "Continuum of directions.", "anchors": ["pvtrace/device/lsc.py:AirGapMirror", "pvtrace/device/lsc.py:OptionalMirrorAndSolarCell"]}
{"id": "C74", "title": "contains and is_on_surface tell inside, surface and outside apart", "statement": "contains holds exactly for interior points (for a sphere: deeper than the tolerance), never on the surface; is_on_surface holds exactly for points within the tolerance of the surface, and no point is both.", "quantifier": "every built-in shape and point", "why_tests_cant": "Continuum of points and sizes.", "anchors": ["pvtrace/geometry/box.py:Box", "pvtrace/geometry/sphere.py:Sphere", "pvtrace/geometry/cylinder.py:Cylinder"]}
{"id": "C75", "title": "The engine traces the scene it was given", "statement": "When the engine accepts a scene, its run on the compiled tables gives the same histories (including node and component names) and the same recorder counts, sums and histograms as a run that reads shapes, poses, refractive indices, surfaces and components from the scene's own objects; no read leaves its table, and the two transformations of a node undo each other.", "quantifier": "every accepted scene, bundle of rays, random stream, emission method, limits, recorders, thread count and schedule", "why_tests_cant": "Offsets into flat tables depend on every other node and component of the scene; tests see few scenes.", "anchors": ["pvtrace/engine/compiler.py:CompiledScene", "pvtrace/engine/_kernel.pyx:trace_one", "pvtrace/engine/_kernel.pyx:interp_clamped", "pvtrace/engine/api.py:EngineResult.histories"]}
{"id": "C76", "title": "Scenes the engine cannot reproduce are refused", "statement": "The engine traces a scene exactly when it can reproduce each part of it as the Python tracer does; every other scene raises UnsupportedSceneError before any ray is traced.", "quantifier": "every scene: any number of nodes, shapes, transformations, surfaces, components, user subclasses", "why_tests_cant": "Open-ended set of unsupported features.", "anchors": ["pvtrace/engine/compiler.py:CompiledScene", "pvtrace/engine/compiler.py:UnsupportedSceneError", "pvtrace/engine/_kernel.pyx:trace_bundle"]}
{"id": "C77", "title": "A studio edit does exactly what it says", "statement": "An accepted 'set' leaves the given value at the given path of the document and every path that neither leads to nor from it as before; 'move' does this for the location of the node moved, with the position in its parent's coordinates; deleting a recorder takes out its entry only. An edit naming a node, recorder or component that is not there is refused, as is a change to a recorder other than of event, facet or tolerance.", "quantifier": "every document, scene and edit", "why_tests_cant": "All documents and paths; tests try single edits.", "anchors": ["pvtrace/studio/server.py:_patch"]}
{"id": "C78", "title": "A scene file builds the scene it describes", "statement": "Loading a scene file gives exactly the nodes it lists, each with the name, parent, location, direction, shape, material and light written in its entry; materials hold the named components; the spectrum of a component has the listed wavelengths, keeps its shape and is scaled so that its peak is the coefficient; walking the scene from world visits every node once.", "quantifier": "every scene file that loads, every content of the files it names", "why_tests_cant": "Open-ended combinations of sections, keys and files; tests load a few example scenes.", "anchors": ["pvtrace/cli/parse.py:parse", "pvtrace/cli/parse.py:parse_v_1_0"]}
{"id": "C79", "title": "Files the schema allows can be loaded", "statement": "A scene file that passes the schema loads without an error, apart from files it names being missing or malformed, references to things it does not declare, and parents in a circle.", "quantifier": "every document that passes the schema", "why_tests_cant": "The set of valid documents is infinite; the schema and the parser are two independent descriptions of the format.", "anchors": ["pvtrace/cli/parse.py:parse", "pvtrace/cli/pvtrace-schema-scene-spec.json"]}
{"id": "C80", "title": "References in scene files are checked", "statement": "A scene file loads only if every parent and every recorded node is a node of the file, every component named by a material is declared, and the parents lead from each node to world (no circles).", "quantifier": "every scene file", "why_tests_cant": "Circles and references of any length and in any order of declaration.", "anchors": ["pvtrace/cli/parse.py:parse_v_1_0", "pvtrace/cli/parse.py:parse_recorders"]}
{"id": "C81", "title": "Directions follow their angular laws", "statement": "Over the random numbers drawn, isotropic emission is uniform on the sphere, Lambertian emission has density cos(theta)/pi on the hemisphere, a cone of half-angle T has density cos(theta)/(pi sin^2 T) on its cap, and Henyey-Greenstein scattering follows the Henyey-Greenstein phase function; in both tracers.", "quantifier": "every function of the direction (hence every set of directions), every half-angle in (0, pi/2], every anisotropy 0 < |g| < 1", "why_tests_cant": "Distribution laws over all sets of directions and parameters; tests sample finitely many rays.", "anchors": ["pvtrace/material/utils.py:isotropic", "pvtrace/material/utils.py:lambertian", "pvtrace/material/utils.py:cone", "pvtrace/material/utils.py:henyey_greenstein", "pvtrace/engine/_kernel.pyx:sample_phase"]}
{"id": "C82", "title": "Sampled wavelengths follow the spectrum", "statement": "The probability that a wavelength sampled from a Distribution is at most x is the area under the spectrum up to x divided by its total area; histograms give each bin its share of the counts; emission with 'redshift' follows the part of the spectrum beyond the absorbed wavelength, with 'full' the whole spectrum.", "quantifier": "every accepted table, evenly spaced or not, and every x of its range", "why_tests_cant": "A law over all tables; sampling tests use evenly spaced tables and tolerances.", "anchors": ["pvtrace/material/distribution.py:Distribution.sample", "pvtrace/material/distribution.py:Distribution.__init__", "pvtrace/material/component.py:Luminophore.emit"]}
{"id": "C83", "title": "Interactions have their physical probabilities", "statement": "A ray with distance d to the next surface is absorbed on the way with probability 1 - exp(-alpha d) (Beer-Lambert), by component i with probability alpha_i/alpha, is re-emitted with the quantum yield of that component, waits an exponentially distributed time of mean tau, and is reflected at a surface with probability equal to the reflectivity; the events are independent; in both tracers.", "quantifier": "every scene, ray, distance, list of components and set of random numbers", "why_tests_cant": "Probabilities over all random numbers, materials and distances; statistical tests have tolerances and fixed scenes.", "anchors": ["pvtrace/algorithm/photon_tracer.py:step_forward", "pvtrace/material/material.py:Material.penetration_depth", "pvtrace/material/material.py:Material.component", "pvtrace/material/surface.py:Surface.is_reflected", "pvtrace/engine/_kernel.pyx:trace_one"]}
{"id": "C84", "title": "Histogram values belong to their bin", "statement": "The value of a histogram Distribution at x is the value of the bin whose left edge is the last one not above x.", "quantifier": "every histogram and every x of its range", "why_tests_cant": "All tables; the tests read histograms at their edges only.", "anchors": ["pvtrace/material/distribution.py:Distribution.__call__"]}
{"id": "C85", "title": "Scene files run in the engine", "statement": "A scene file that loads is traced by the compiled engine exactly when its world has a shape, no node is a mesh, no component uses a Lambertian phase function or histogram spectrum, every coefficient can be read and there are at most 128 shapes. Each node sits where the file puts it relative to its parent, without stretching, and the engine traces exactly the scene of the objects the file describes.", "quantifier": "every scene file that loads, every ray, random stream and budget", "why_tests_cant": "All documents, trees of nodes and runs; tests load a handful of files and never compare engine acceptance with the contents of the file.", "anchors": ["pvtrace/cli/parse.py:parse_v_1_0", "pvtrace/engine/compile.py:compile_scene", "pvtrace/engine/engine.py:simulate", "pvtrace/geometry/transformable.py:Transformable"]}
{"id": "C86", "title": "Absorption acts on every segment of a path", "statement": "A ray that travels a distance d through material with attenuation coefficient alpha is absorbed on the way with probability 1 - exp(-alpha d), on every segment of its path including the last one to the edge of the scene, and for every alpha, in both tracers.", "quantifier": "every scene, ray, segment and coefficient", "why_tests_cant": "All segments of all paths; tests leave the world transparent.", "anchors": ["pvtrace/algorithm/photon_tracer.py:step_forward", "pvtrace/material/material.py:Material.penetration_depth", "pvtrace/engine/_kernel.pyx:trace_one"]}
{"id": "C87", "title": "Built-in dye spectra are normalised", "statement": "The absorption and emission spectra of the built-in dyes are positive and, as documented, normalised to a peak of 1; the value at a wavelength does not depend on which other wavelengths are asked for; a scene file may name them with any non-empty range.", "quantifier": "every array of wavelengths", "why_tests_cant": "All arrays; no test calls the functions with more than one array.", "anchors": ["pvtrace/data/lumogen_f_red_305.py:absorption", "pvtrace/data/lumogen_f_red_305.py:emission", "pvtrace/data/fluro_red.py:absorption", "pvtrace/data/fluro_red.py:emission", "pvtrace/cli/parse.py:load_named_spectrum"]}
{"id": "C88", "title": "Components are what their arguments say", "statement": "A scatterer, absorber, reactor or luminophore can be made exactly when its arguments describe a non-negative absorption coefficient (a number, a table, or functions with wavelengths), a quantum yield in [0, 1] or two positive lifetimes and, for a luminophore, an emission spectrum or nothing (a Gaussian). It then has that coefficient at each wavelength and that quantum yield.", "quantifier": "all arguments of the constructors, all wavelengths", "why_tests_cant": "All combinations of argument types, tables and functions; tests construct a handful.", "anchors": ["pvtrace/material/component.py:Scatterer", "pvtrace/material/component.py:Absorber", "pvtrace/material/component.py:Reactor", "pvtrace/material/component.py:Luminophore", "pvtrace/material/distribution.py:Distribution.from_functions"]}
{"id": "C89", "title": "A concentrator is built as configured", "statement": "After any sequence of calls that configure an LSC, simulating traces a scene with exactly the components, lights, solar cells and mirrors asked for so far, each in its place, or the documented defaults.", "quantifier": "every sequence of configuration calls, sizes, indices and wavelength ranges, before and after the first simulation", "why_tests_cant": "All call histories including failed calls and additions after a simulation.", "anchors": ["pvtrace/device/lsc.py:LSC.__init__", "pvtrace/device/lsc.py:LSC._make_scene", "pvtrace/device/lsc.py:LSC.add_solar_cell", "pvtrace/device/lsc.py:LSC.add_scatterer", "pvtrace/device/lsc.py:LSC.light_names"]}
{"id": "C90", "title": "Fractions of reflected, transmitted and absorbed light follow the optics of a slab", "statement": "Light that meets an object and is reflected to and fro inside it ends its path with the probabilities of the physics: with reflectivity r at each surface, attenuation a and equal chords of length L, it is turned away with probability r, leaves after k inner reflections with probability (1-r)^2 (r e^{-aL})^k e^{-aL} and is absorbed on chord k with probability (1-r)(r e^{-aL})^k(1-e^{-aL}). A beam at right angles to an absorbing slab is transmitted, reflected and absorbed in the textbook fractions, up to the part still under way when the limit of steps is reached.", "quantifier": "every sequence of independent uniform random numbers, every number of reflections, every step limit, thickness, index and attenuation", "why_tests_cant": "A test compares sampled averages of one scene with a tolerance; a bias smaller than the sampling error, or in rare long paths, is not seen. The law of whole histories needs an argument over infinitely many random numbers.", "anchors": ["pvtrace/algorithm/photon_tracer.py:step_forward", "pvtrace/algorithm/photon_tracer.py:follow", "pvtrace/material/surface.py:FresnelSurfaceDelegate", "pvtrace/material/material.py:Material.penetration_depth"]}
{"id": "C91", "title": "The live view of the studio shows the true results so far", "statement": "While a simulation runs, every message sent to the page shows for each recorder the rays, crossings, means and histograms that one run of all the rays traced so far would report, under the labels and bin edges of that recorder; the ray paths shown are the logged events of recorded rays, in order, and there are never more than asked for.", "quantifier": "every compiled scene, every list of bundles, every thread schedule, every recording interval that does not depend on the place of a ray, every limit on paths", "why_tests_cant": "All recorders, histograms, bundle sizes and schedules.", "anchors": ["pvtrace/studio/server.py:run", "pvtrace/studio/server.py:_histogram_meta", "pvtrace/studio/server.py:_recorder_payload", "pvtrace/studio/server.py:_extract_paths"]}
{"id": "C92", "title": "The plots of the studio picture the counts", "statement": "In the studio, a point of a heat map is painted with the count of the bin that contains it, on the face overlay as well as in the inspector; pointing at a plot names the bin that is drawn there and its count; bars are as high as their counts; an isotropic distribution is drawn as a circular arc; larger counts are never painted fainter.", "quantifier": "every histogram and heat map of any size and range, every box, every point of the plot off the lines between bins", "why_tests_cant": "All bin numbers, ranges, face sizes and points.", "anchors": ["pvtrace/studio/static/app.js:drawHeatmapInto", "pvtrace/studio/static/app.js:buildRecorderOverlay", "pvtrace/studio/static/app.js:inspectBin", "pvtrace/studio/static/app.js:drawBars", "pvtrace/studio/static/app.js:drawPolar"]}
{"id": "C93", "title": "An interrupted run leaves the beginning of its database", "statement": "At whatever moment `pvtrace simulate` is killed or a part of it raises, the database file holds the complete records of the first events that arrived and nothing else: no half-written event and nothing of an earlier run; count, spectrum and time on it give part of what they give on the complete run. A command that prints OK has stored every event, and the command always ends. A database of an earlier run is replaced only when the user asks for it.", "quantifier": "every number of events, every interleaving of workers, writing thread and main thread, every point at which the process is killed or a worker or the writing thread raises", "why_tests_cant": "Tests cannot stop the program at every point of every schedule.", "anchors": ["pvtrace/cli/main.py:simulate", "pvtrace/cli/main.py:monitor_queue", "pvtrace/cli/main.py:prepare_database", "pvtrace/scene/scene.py:do_simulation_add_to_queue"]}
{"id": "C94", "title": "The viewport shows the scene that is traced, and a dropped object is where it was dropped", "statement": "The studio page draws, for each solid of the scene the engine traces, exactly the points it occupies (also when it is turned or mirrored) under its name, and each light of the file at the place of its node. Dragging an object and dropping it at a point rewrites the document so that it loads again, with the object at that point up to half a millionth per axis; it and everything attached to it are shifted by the same vector without being turned, and nothing else changes. Every object but the world can be dropped.", "quantifier": "every scene with rigid poses, every scene file that loads, every object of it and every point", "why_tests_cant": "The page and its geometry library are not covered by tests; the claim ranges over all poses, trees of objects and points.", "anchors": ["pvtrace/studio/server.py:Studio.scene_payload", "pvtrace/studio/server.py:_patch", "pvtrace/studio/static/app.js:buildGeometry", "pvtrace/studio/static/app.js:buildScene", "pvtrace/scene/node.py:Node.transformation_to"]}
{"id": "C95", "title": "Guided light: light leaves a plate only inside the escape cone it was emitted in", "statement": "Light that leaves a box through a face, or a rod through an end, after any number of reflections at the same object had, before all of them, a direction inside the escape cone of that face: n1 sin(angle) <= n2. The direction of emitted light is the one drawn by its phase function in the frame of the object; of isotropic light the share 1 - sqrt(1 - (n2/n1)^2) is inside the cones of a pair of opposite faces, and when n1^2 > 2 n2^2 the share 3 sqrt(1 - (n2/n1)^2) - 2 is in no cone and stays guided until it is absorbed.", "quantifier": "every scene with Fresnel surface on the object, every history, every number of reflections between emission and escape, every pose and all pairs of indices", "why_tests_cant": "The number of reflections is unbounded and directions form a continuum; the trapped share is the expectation of a geometric event, which a Monte Carlo test only estimates.", "anchors": ["pvtrace/material/surface.py:FresnelSurfaceDelegate", "pvtrace/material/utils.py:fresnel_reflectivity", "pvtrace/material/utils.py:specular_reflection", "pvtrace/material/utils.py:isotropic", "pvtrace/algorithm/photon_tracer.py:step_forward", "pvtrace/geometry/box.py:Box.normal", "pvtrace/geometry/cylinder.py:Cylinder.normal"]}
{"id": "C96", "title": "Light travels in the object named as container", "statement": "In a scene whose objects are nested or apart, every event after the first names a container, the event happens in that object, and the ray went straight to it from the previous event through that object and outside every smaller one. So an absorption named after an object happens inside it and not in an object nested in it.", "quantifier": "every scene of spheres, boxes and rods in any rigid pose that are nested or do not overlap, every ray, every history of it, every event", "why_tests_cant": "Which object surrounds a ray is inferred from counting crossings ahead, with EPS_ZERO cut-offs and near-tangent special cases; tests check a few lines of sight, not every ray that scattering and refraction can produce.", "anchors": ["pvtrace/algorithm/photon_tracer.py:find_container", "pvtrace/algorithm/photon_tracer.py:next_hit", "pvtrace/algorithm/photon_tracer.py:step_forward", "pvtrace/scene/scene.py:Scene.intersections", "pvtrace/geometry/sphere.py:Sphere.intersections"]}
{"id": "C97", "title": "The studio writes the document when it is saved, and nothing else", "statement": "Edits in the studio leave all files as they are. The document's file is as it was opened until a save; after a save it holds the document as it was in the studio then. Uploads only write .csv and .txt files in the directory of the document, whatever name is sent, and no other file ever changes. A server killed at any moment leaves the old or the new document on disk. The saved document loads in pvtrace-cli and describes the scene the studio shows, with the uploaded spectra.", "quantifier": "every sequence of put, patch, upload and save requests, every file name and text sent, every state of the disk, every moment at which the process is killed", "why_tests_cant": "Sequences of requests, file names sent by a page and crash points are unbounded; a test sees one sequence, in one working directory, that runs to its end.", "anchors": ["pvtrace/studio/server.py:create_app", "pvtrace/studio/server.py:Studio.apply", "pvtrace/studio/server.py:upload_file", "pvtrace/studio/server.py:save_document", "pvtrace/cli/parse.py:parse", "pvtrace/cli/parse.py:load_spectrum"]}
{"id": "C98", "title": "Counting rays estimates probabilities", "statement": "The number of rays a recorder or a result reports, divided by the number of rays thrown, is an unbiased estimate of the probability of what it counts; it converges to that probability as more rays are thrown, each bin of a histogram likewise, and with n rays it is wrong by e or more with a probability of at most 2 exp(-2 n e^2). In particular the simulated transmittance of a slab converges to the value of the textbook.", "quantifier": "every event of a ray decided by its random numbers, every set of recorders, every number of rays and every accuracy; almost all sequences of random numbers", "why_tests_cant": "A test compares one finite run with a tolerance; it can neither show convergence nor that the tolerance holds with the stated probability, and a biased count passes a loose tolerance.", "anchors": ["pvtrace/engine/tally.py:tally_histories", "pvtrace/engine/recorder.py:Recorder", "pvtrace/scene/scene.py:Scene.simulate", "pvtrace/light/light.py:Light.emit"]}
{"id": "C99", "title": "A surface written by the user only turns rays", "statement": "Whatever a user's surface delegate answers, the tracer moves rays along straight lines, advances path length and clock by the way and the index of the medium, and keeps wavelength and light at a surface; the ray is reflected exactly as often as the delegate's reflectivity says; answers of the wrong type raise ValueError; and if the answers are unit vectors then all directions are unit vectors and all events at surfaces lie on the surface of the named object. The library's own mirrors and solar cells are such delegates.", "quantifier": "every scene, every delegate on every object (stateful or random ones included), every ray, every generator and every step limit", "why_tests_cant": "Delegates are arbitrary code of the user; a test can try a few, and only for a few rays.", "anchors": ["pvtrace/material/surface.py:Surface", "pvtrace/material/surface.py:SurfaceDelegate", "pvtrace/device/lsc.py:OptionalMirrorAndSolarCell", "pvtrace/device/lsc.py:AirGapMirror", "pvtrace/algorithm/photon_tracer.py:step_forward"]}
{"id": "C100", "title": "The viewer shows every object where it is traced", "statement": "After MeshcatRenderer.remove and render, the viewer shows for every object of the scene exactly the points that the tracer attributes to it (nested nodes and cylinders included), each object once, and nothing else of an earlier scene.", "quantifier": "every scene graph with any nesting, poses, names and geometries, and whatever the viewer showed before", "why_tests_cant": "Tests cannot look at the screen; the position depends on the product of all poses above a node, on an axis convention for cylinders and on how names are turned into places of the viewer's tree.", "anchors": ["pvtrace/scene/renderer.py:MeshcatRenderer.render", "pvtrace/scene/renderer.py:MeshcatRenderer.add_node", "pvtrace/scene/renderer.py:MeshcatRenderer.add_geometry", "pvtrace/scene/renderer.py:MeshcatRenderer.remove", "pvtrace/scene/node.py:Node.transformation_to"]}
{"id": "C101", "title": "Rays that share one random generator are independent", "statement": "In a simulation in one process all rays take their random numbers from one generator, each ray as many as it needs, the next ray starting where the last one stopped. If the generator's numbers are independent and uniform, then the histories are independent: the chance that ray 0, ray 1, ... meet given fates is the product of the chances each ray has with a generator of its own, and the share of rays with a given fate tends to the mean of these chances with the usual error bound.", "quantifier": "every scene of the library's parts, every list of lights, every number of rays and every measurable fate of a history, for all streams of numbers", "why_tests_cant": "The number of random numbers a ray takes is itself random and unbounded; a test sees a few streams, and correlations between consecutive rays are invisible in averages.", "anchors": ["pvtrace/scene/scene.py:do_simulation", "pvtrace/scene/scene.py:Scene.emit", "pvtrace/algorithm/photon_tracer.py:step_forward", "pvtrace/light/light.py:Light.emit", "pvtrace/material/material.py:Material.penetration_depth", "pvtrace/material/component.py:Luminophore.emit"]}
{"id": "C102", "title": "Every Borel question about a simulation has a probability", "statement": "For every scene made of the library's parts (any tree of spheres, cylinders and boxes with coatings and materials) and any light built from the library's delegates, every Borel question about the history of a ray - which events happen, where, in which direction, at which wavelength, after how many passes - has a well-defined probability, and so has the number of random numbers the ray takes. Hence the rays of a simulation are independent and the share of rays with any Borel fate tends to its probability, with no assumption on the fate beyond being Borel.", "quantifier": "every library scene, every list of library lights (own delegates must be Borel programs), every mesh back-end whose hits are Borel in the ray, every emit method and limit, every Borel set of histories", "why_tests_cant": "That a fraction measured in a simulation has a limit is a statement about all streams of random numbers; whether the question asked has a probability at all is not visible in any run.", "anchors": ["pvtrace/algorithm/photon_tracer.py:step_forward", "pvtrace/scene/scene.py:do_simulation", "pvtrace/geometry/sphere.py:Sphere.intersections", "pvtrace/geometry/cylinder.py:Cylinder.intersections", "pvtrace/material/distribution.py:Distribution.sample", "pvtrace/material/component.py:Luminophore.emit", "pvtrace/light/light.py:Light.emit"]}
{"id": "C103", "title": "Every ray comes to an end without an exception", "statement": "In a scene whose objects are nested or apart, whose spectra cover the wavelengths that occur and whose phase functions have admissible parameters, following a ray raises nothing: its history is complete and its last event is an exit, a loss in a material, a reaction or the limit of steps or path length. No interface is left without a neighbour, no normal is asked for off a surface, no refraction angle is undefined, no component is picked from nothing.", "quantifier": "every library scene of any size, every ray in general position (not tangent, not on an edge), every stream of random numbers, every limit of steps and path length, every emit method with spectra that suit it", "why_tests_cant": "An exception needs a rare combination of geometry, wavelength and random numbers after an unbounded number of events; a run that did not raise says nothing about the next seed.", "anchors": ["pvtrace/algorithm/photon_tracer.py:step_forward", "pvtrace/algorithm/photon_tracer.py:follow", "pvtrace/material/component.py:Luminophore.emit", "pvtrace/material/distribution.py:Distribution.lookup", "pvtrace/material/material.py:Material.component", "pvtrace/material/surface.py:FresnelSurfaceDelegate.transmitted_direction"]}
{"id": "C104", "title": "An apparatus put somewhere else behaves the same", "statement": "If every object, light and ray of a simulation is moved by the same rotation and translation, then with the same random numbers every ray has the same history moved along: same events, objects, components, wavelengths, path lengths and times, with positions, directions and normals carried by the motion. Giving a pose to the group node that holds the apparatus is such a motion. The engine writes the same log, moved along, and the same numbers in every recorder.", "quantifier": "every scene of any number of nodes, geometries, materials and surfaces, every rigid motion with its inverse, every ray, every stream of random numbers, every limit of steps, path length and events; for the grouped scene graph every tree of nodes", "why_tests_cant": "Tests place objects at a few round coordinates; the equality has to hold for every motion and for every random path through the scene, with no bound on its length.", "anchors": ["pvtrace/algorithm/photon_tracer.py:follow", "pvtrace/scene/node.py:Node.transformation_to", "pvtrace/scene/node.py:Node.intersections", "pvtrace/engine/_kernel.pyx:trace_one", "pvtrace/engine/_kernel.pyx:sample_phase"]}
{"id": "C105", "title": "The order in which objects are added does not matter", "statement": "Two scenes with the same objects, named and placed alike but added to the tree in another order, give every ray the same history with the same random numbers, in the Python tracer and in the engine.", "quantifier": "every scene of any number of objects, every permutation that keeps the world first, every ray, every stream of random numbers, every limit of steps and path length", "why_tests_cant": "Tests build a few scenes once and look at averages; the equality has to hold for every path a ray can take through every arrangement, with the same random numbers and no bound on its length.", "anchors": ["pvtrace/scene/scene.py:Scene.intersections", "pvtrace/scene/node.py:Node.intersections", "pvtrace/algorithm/photon_tracer.py:next_hit", "pvtrace/algorithm/photon_tracer.py:find_container", "pvtrace/engine/_kernel.pyx:trace_one"]}
{"id": "C106", "title": "An object the light does not reach changes nothing", "statement": "Adding objects to a scene does not change the history of a ray that does not come to them: with the same random numbers every step is the same, in the Python tracer and in the engine.", "quantifier": "every scene, every set of further objects anywhere in the order, every ray that does not come to them, every stream of random numbers, every limit of steps and path length", "why_tests_cant": "Tests build a few scenes once and look at averages; the equality has to hold for every path a ray can take through every arrangement, with the same random numbers and no bound on its length.", "anchors": ["pvtrace/scene/scene.py:Scene.intersections", "pvtrace/algorithm/photon_tracer.py:next_hit", "pvtrace/algorithm/photon_tracer.py:find_container", "pvtrace/engine/_kernel.pyx:trace_one"]}
{"id": "C107", "title": "The world's size and shape matter only where rays leave it", "statement": "The root node only bounds the simulation. Making it larger, smaller or of another shape, with all objects still inside, leaves every step of every history the same except that a ray that leaves the world does so at another place and time, in the Python tracer and in the engine.", "quantifier": "every scene, every two shapes of the world that contain all objects, every ray in general position, every stream of random numbers, every limit of steps", "why_tests_cant": "Tests build a few scenes once and look at averages; the equality has to hold for every path a ray can take through every arrangement, with the same random numbers and no bound on its length.", "anchors": ["pvtrace/scene/scene.py:Scene", "pvtrace/algorithm/photon_tracer.py:follow", "pvtrace/algorithm/photon_tracer.py:next_hit", "pvtrace/engine/_kernel.pyx:trace_one"]}
{"id": "C108", "title": "The unit of length is arbitrary", "statement": "Writing a scene in another unit of length (all sizes, positions and path lengths multiplied by k, absorption coefficients divided by k) changes nothing but the unit: with the same random numbers every history is the same, with positions, distances and times multiplied by k, in the Python tracer and in the engine.", "quantifier": "every scene, every factor k > 0, every ray, every stream of random numbers, every limit of steps", "why_tests_cant": "Tests use scenes of a few units (usually centimetres); whether an absolute tolerance somewhere decides differently depends on all sizes and coefficients, and the equality has to hold for every path.", "anchors": ["pvtrace/engine/_kernel.pyx:trace_one", "pvtrace/engine/_kernel.pyx:intersect_sphere", "pvtrace/engine/_kernel.pyx:intersect_cylinder", "pvtrace/material/material.py:Material.penetration_depth", "pvtrace/geometry/utils.py:EPS_ZERO"]}
{"id": "C109", "title": "Light follows a path backwards as often as forwards", "statement": "A ray started at the end of a path, with the direction reversed, retraces the path with the same probability with which a ray from its beginning follows it: through any number of reflections, refractions and absorbing pieces. That probability is the product of the transmittances exp(-alpha l) of the pieces and of the Fresnel probabilities of the turns.", "quantifier": "every scene of objects one in another, every path of any number of legs in it that obeys the laws of reflection and refraction, every wavelength, every limit of steps not below the number of legs", "why_tests_cant": "A test can compare frequencies on a few paths within statistical error; equality of the two probabilities for all paths and scenes needs a proof over all random numbers.", "anchors": ["pvtrace/engine/_kernel.pyx:trace_one", "pvtrace/engine/_kernel.pyx:fresnel_reflectivity", "pvtrace/engine/_kernel.pyx:fresnel_refract", "pvtrace/engine/_kernel.pyx:specular_reflect", "pvtrace/engine/_kernel.pyx:local_normal"]}
{"id": "C110", "title": "The emission computed from an absorption spectrum obeys detailed balance", "statement": "thermodynamic_emission returns, at the wavelengths of the absorption spectrum and in their order, absorption times E^2/(exp((E-mu)/kT)-1) times one constant, with values from 0 to 1 and peak 1. Hence zero absorption means zero emission, the unit of absorption does not matter, and of two wavelengths absorbed alike the longer one is emitted more. Converting a spectrum between wavelengths and energies twice gives it back. bandgap is alpha below the cutoff, half of it there, and 0 above.", "quantifier": "every spectrum with any number of rows, every temperature above 0, every chemical potential below the photon energies", "why_tests_cant": "The existing test plots or compares one spectrum; the law, the range and the peak must hold for every spectrum, temperature and potential.", "anchors": ["pvtrace/material/utils.py:thermodynamic_emission", "pvtrace/material/utils.py:simple_convert_spectum", "pvtrace/material/utils.py:bandgap"]}
{"id": "C111", "title": "Euler angles, quaternions and matrices describe the same rotations", "statement": "In each of the 24 named Euler conventions euler_matrix(a, b, c) is the product of the three turns the name spells, about fixed or turning axes, and quaternion_from_euler gives the same rotation. euler_from_matrix returns angles that give the matrix back. quaternion_matrix is the rotation v -> q v q^-1, so that quaternion_multiply composes rotations; quaternion_about_axis agrees with rotation_matrix; quaternion_from_matrix gives the matrix back. random_quaternion has length 1. quaternion_slerp turns evenly. decompose_matrix followed by compose_matrix gives back every matrix that is not singular.", "quantifier": "all angles, all rotations, all quaternions, all axes, all 24 conventions, every regular affine matrix", "why_tests_cant": "Doctests compare a few random matrices with allclose; gimbal lock, half turns and conventions are sets of measure zero a random sample does not meet.", "anchors": ["pvtrace/geometry/transformations.py:euler_matrix", "pvtrace/geometry/transformations.py:euler_from_matrix", "pvtrace/geometry/transformations.py:quaternion_from_euler", "pvtrace/geometry/transformations.py:quaternion_matrix", "pvtrace/geometry/transformations.py:quaternion_from_matrix", "pvtrace/geometry/transformations.py:quaternion_multiply", "pvtrace/geometry/transformations.py:quaternion_slerp", "pvtrace/geometry/transformations.py:decompose_matrix", "pvtrace/geometry/transformations.py:compose_matrix"]}
{"id": "C112", "title": "Re-emission follows the quantum yield", "statement": "A ray followed by the Python tracer through a scene whose luminophores all have quantum yield at most q is re-emitted k times or more with probability at most q^k, and q/(1-q) times on average at most (q < 1), whatever the geometry, the spectra and the limits. The same holds for re-emissions and scatterings together if q also bounds the yields of the scatterers. If following the ray never fails and all that absorbs are luminophores of yield q, being re-emitted k times or more is exactly q times as probable as being absorbed k times or more, and the mean number of re-emissions is exactly q times the mean number of absorptions.", "quantifier": "all scenes of the library's parts, all rays, all limits, all k, over independent random numbers", "why_tests_cant": "The statement is about probabilities over unboundedly many random numbers and histories of any length; a test samples finitely many rays of one scene and can only reject gross errors.", "anchors": ["pvtrace/algorithm/photon_tracer.py:step_forward", "pvtrace/algorithm/photon_tracer.py:follow", "pvtrace/material/component.py:Scatterer.is_radiative", "pvtrace/material/component.py:Luminophore.emit", "pvtrace/material/material.py:Material.component"]}
{"id": "C113", "title": "The engine's recorders estimate probabilities", "statement": "Rays traced by the compiled engine with independent random numbers: every Borel question about what the engine writes for a ray (its event log, its recorder updates) has a probability, and different rays are independent. Whatever the number of threads, the schedule, the recording options and the launched rays, the number of rays a recorder reports, and the content of every bin of its histograms, divided by the number k of rays, lies within e of the mean of the rays' own probabilities of being reported, except with probability 2 exp(-2 k e^2); as k grows the two come together with probability one. For copies of one ray the reported share tends to the probability of being reported.", "quantifier": "all scenes of boxes, spheres and cylinders, all recorders, all bundles of rays, all limits, all thread counts and interleavings, over independent random numbers", "why_tests_cant": "A statement about probabilities and about limits of unboundedly many rays for every schedule; a test sees one finite sample.", "anchors": ["pvtrace/engine/_kernel.pyx:trace_bundle", "pvtrace/engine/_kernel.pyx:trace_one", "pvtrace/engine/_kernel.pyx:tally", "pvtrace/engine/api.py:EngineResult.recorders", "pvtrace/engine/compiler.py:_compile_recorders"]}
{"id": "C114", "title": "Re-emission in the engine follows the quantum yield", "statement": "A ray traced by the compiled engine with independent uniform numbers: if no luminophore has a quantum yield above q, the chance that its history shows one more re-emission is at most q times the chance of the re-emissions before it, so at least k re-emissions have a chance of at most q^k, and the mean number of re-emissions is at most q/(1-q) however many steps are allowed. The chance of at least k re-emissions is at most q times that of at least k absorptions, and the mean number of re-emissions at most q times the mean number of absorptions; both are equalities where every component is a luminophore of quantum yield q, and then the chance of ending in non-radiative loss is (1-q) times the mean number of absorptions. In every scene the mean number of absorptions is the mean number of re-emissions plus that of scatterings plus the chance of ending in a loss or a reaction.", "quantifier": "all scenes of boxes, spheres and cylinders, all rays, all emission methods, all step limits, over independent random numbers", "why_tests_cant": "Statements about probabilities and means over all random outcomes and unboundedly many steps; a test sees one finite sample of one scene.", "anchors": ["pvtrace/engine/_kernel.pyx:trace_one", "pvtrace/engine/_kernel.pyx:component_absorption", "pvtrace/engine/compiler.py:compile_scene", "pvtrace/material/component.py:Luminophore"]}
{"id": "C115", "title": "Tracing with the engine does not change the statistics, also where rotated objects re-emit", "statement": "In a scene the engine accepts, in which each luminophore and scatterer is isotropic or sits in an object whose z axis still points along the world's z axis: every Borel question about the complete history of a ray (events, positions, directions, wavelengths, path lengths, times, names, normals) has the same probability in the compiled engine and in the Python tracer, up to the probability that the tracer meets a state in which the two codes are known to disagree (near-tangent lines, rims, grazing angles, ties, a raised error). The engine draws directions of re-emission in the world's axes and the tracer in the object's axes, so the same random numbers give different histories when the object is rotated; the probabilities stay the same.", "quantifier": "all accepted scenes of boxes, spheres and cylinders with any rigid poses, all fresh rays, all emission methods and step limits, all Borel conditions on histories, over independent random numbers", "why_tests_cant": "Equality of two probability distributions on complete histories of any length; the two codes give different histories for the same seed, so no finite comparison can settle it.", "anchors": ["pvtrace/engine/_kernel.pyx:sample_phase", "pvtrace/engine/_kernel.pyx:trace_one", "pvtrace/algorithm/photon_tracer.py:step_forward", "pvtrace/material/component.py:Luminophore.emit", "pvtrace/material/utils.py:isotropic"]}
{"id": "C116", "title": "Simulating writes one file, and only with consent over an old one", "statement": "`pvtrace simulate dir/stem.ext` stores its results in dir/stem.sqlite3. At every moment of the command, whichever process or thread fails or is killed, every other file is unchanged, in particular the scene file; a file already there under that name is removed only with --overwrite or after a yes, and not if the scene has an error; different scenes have different databases.", "quantifier": "all absolute paths (folders and names with any dots), all contents of the disk, all answers, all schedules and failures of workers, writer and main thread", "why_tests_cant": "Ranges over all file names and over every interleaving and crash point of several processes.", "anchors": ["pvtrace/cli/main.py:simulate", "pvtrace/cli/main.py:prepare_database", "pvtrace/cli/main.py:monitor_queue"]}
{"id": "C117", "title": "Matrices do what their names say, and their parameters can be read back", "statement": "reflection_matrix sends every point to its mirror image; scale_matrix multiplies distances from the origin, or along one direction; projection_matrix sends every point to where its perpendicular, the line along the direction, or the line of sight meets the plane, and pseudo keeps relative depth; clip_matrix sends exactly the view volume to the cube from -1 to 1; shear_matrix moves points along the direction by tan(angle) times their distance from the plane; orthogonalization_matrix gives the cell with the given lengths and angles. The *_from_matrix functions return parameters from which the same matrix is built again. angle_between_vectors is the angle between the vectors; concatenate_matrices applies one after the other; is_same_transform compares up to a factor.", "quantifier": "all points, normals, directions, factors, angles, view volumes, matrices and lists of matrices over the real numbers, and all eigenvectors the eigenvalue routine may return", "why_tests_cant": "Tests draw a few random parameters and check one point or one determinant; degenerate positions (planes through the origin, unit distances, zero angles, the other side of the plane) have measure zero or are not drawn.", "anchors": ["pvtrace/geometry/transformations.py:reflection_matrix", "pvtrace/geometry/transformations.py:scale_matrix", "pvtrace/geometry/transformations.py:projection_matrix", "pvtrace/geometry/transformations.py:projection_from_matrix", "pvtrace/geometry/transformations.py:clip_matrix", "pvtrace/geometry/transformations.py:shear_matrix", "pvtrace/geometry/transformations.py:orthogonalization_matrix", "pvtrace/geometry/transformations.py:is_same_transform"]}
{"id": "C118", "title": "The engine's recorders estimate the chances of the Python tracer's histories", "statement": "What a recorder attached to a node reports after an engine run is an estimate of what the Python tracer does: the chance that the engine's recorder counts a ray equals the chance that the history the Python tracer gives for that ray contains an event of the kind, node and facet the recorder asks for; and the share of rays counted tends to that chance as the number of rays grows.", "quantifier": "all supported scenes with differently named nodes (rotated or not), all recorders (without a facet if they watch exits), all rays for which almost every run is regular, any number of threads and any schedule", "why_tests_cant": "Tests compare the two tracers on a few scenes and a few thousand rays with wide tolerances; they cannot show equality of chances or convergence for every schedule.", "anchors": ["pvtrace/engine/_kernel.pyx:trace_one", "pvtrace/engine/_kernel.pyx:tally", "pvtrace/algorithm/photon_tracer.py:step_forward", "pvtrace/engine/recorder.py:Recorder"]}
{"id": "C119", "title": "The engine and its recorders reproduce the textbook's slab", "statement": "For light that falls perpendicularly on an absorbing slab the chances that the engine ends a ray behind the slab, in front of it, or in it are within the given distance of the transmittance, reflectance and absorptance of the textbook (multiple reflections summed), and the shares that recorders on the far face and of lost light report tend to numbers within that distance, which vanishes geometrically with the limit on the number of steps.", "quantifier": "all slabs, refractive indices, absorption coefficients, beam positions and step limits, all draws, any number of threads and any schedule", "why_tests_cant": "A test runs a finite sample; it cannot tell an error below its statistical noise from none, nor cover every slab.", "anchors": ["pvtrace/engine/_kernel.pyx:trace_one", "pvtrace/engine/_kernel.pyx:tally", "pvtrace/engine/recorder.py:Recorder"]}
{"id": "C120", "title": "What the studio's buttons add can be loaded", "statement": "If the document in the studio loads, then after pressing the button for a box, a sphere, a cylinder, a light, a component or a recorder it still loads. A new node has a name no node had, comes last, sits in the world with the shape, index, place and direction the button stands for, and all other nodes and all recorders are as before. A new component changes neither nodes nor recorders, and a material may name it. A new recorder has a name no recorder had, declared or automatic, counts the rays that escape the chosen node with a histogram of their wavelengths, and all nodes and all other recorders are as before.", "quantifier": "every document that loads, whatever names, components, parents and recorders it has, and every button of those kinds", "why_tests_cant": "The entry the button writes passes through schema, component map, tree and recorder parsing together with an arbitrary document, and its name must avoid every name in use, also those the loader makes up later.", "anchors": ["pvtrace/studio/server.py:SNIPPETS", "pvtrace/studio/server.py:_patch", "pvtrace/studio/server.py:_unique_name", "pvtrace/cli/parse.py:parse", "pvtrace/cli/parse.py:parse_recorders", "pvtrace/cli/pvtrace-schema-scene-spec.json"]}
{"id": "C121", "title": "Guided light in the engine's log", "statement": "In the event log of the engine every direction has length 1. Light reflected any number of times at the faces of a box, or at the surface of a rod, is transmitted through a face (an end of the rod) only if the direction it had before all these reflections was already inside the escape cone of that face, n1 sin(theta) <= n2. So light in a box whose direction is in no escape cone is reflected at every face, whatever random numbers are drawn. The direction of an emission is drawn from the component's phase function, and of isotropic emission in a box of index n1 in a medium of index n2 the share 1 - cos(theta_c) is in the cones of each pair of faces and 3 cos(theta_c) - 2 is in none, however the box is turned.", "quantifier": "every scene with proper shapes and positive indices, every pose, every log slot and budget, every first ray with a direction of length 1, every stream of numbers in [0, 1), any number of reflections", "why_tests_cant": "A test follows some rays for some reflections in some pose; the claim is about every sequence of reflections, and that total reflection is never lost to a random number.", "anchors": ["pvtrace/engine/_kernel.pyx:trace_one", "pvtrace/engine/_kernel.pyx:local_normal", "pvtrace/engine/_kernel.pyx:specular_reflect", "pvtrace/engine/_kernel.pyx:fresnel_refract", "pvtrace/engine/_kernel.pyx:sample_phase", "pvtrace/engine/_kernel.pyx:record"]}
{"id": "C122", "title": "What the studio's delete buttons leave behind", "statement": "In a document that loads, deleting a node that is not the world and has no children leaves a document that loads, whose scene has lost that node and the recorders on it and is otherwise unchanged. Deleting a node with children, or the world, leaves a document that is refused, so the studio keeps the old one. Deleting a declared recorder leaves a document that loads, without that recorder and otherwise unchanged. Deleting a component leaves a document that loads: every material has lost that component, and shapes, places, lights, other components and recorders are unchanged.", "quantifier": "every document that loads, every node, recorder and component name, any number of nodes, components and recorders", "why_tests_cant": "Tests delete one thing from one document; whether the rest still loads, and still means the same, depends on every reference in the document.", "anchors": ["pvtrace/studio/server.py:_patch", "pvtrace/cli/parse.py:parse", "pvtrace/cli/parse.py:parse_v_1_0", "pvtrace/cli/parse.py:parse_recorders", "pvtrace/cli/pvtrace-schema-scene-spec.json"]}
{"id": "C123", "title": "The lights of a scene file", "statement": "A simulation of a scene file uses every light entry of the file exactly once: lights nearer to the world in the tree come first, lights hanging on the same node come in the order of the file. If n rays are asked for, n come, ray i from light i mod L, with a wavelength of this light, a start inside its aperture and a direction of its beam, all put into the world by the node it hangs on. Every scene file that loads can emit rays.", "quantifier": "every scene file that loads, any tree and number of lights, every number of rays and every sequence of random numbers", "why_tests_cant": "Tests emit a few rays from one or two lights in a flat scene; which light a ray comes from depends on the whole tree, and where it starts on every random number.", "anchors": ["pvtrace/scene/scene.py:Scene.light_nodes", "pvtrace/scene/scene.py:Scene.emit", "pvtrace/light/light.py:Light.emit", "pvtrace/cli/parse.py:parse_light", "pvtrace/engine/emit.py:emit_bundle"]}
{"id": "C124", "title": "The studio lists every recorder once and offers to delete exactly those that can be deleted", "statement": "When a loadable document is open in the studio, the list of recorders sent to the page contains every recorder of the scene exactly once, with the node it sits on, its event, its face and the ranges and bins of its histograms, and nothing else. A recorder is marked automatic exactly when the document does not declare it under `recorders`. The page shows a delete button for a recorder exactly when the server will accept the deletion.", "quantifier": "every document that loads, with any nodes, any `record: true` nodes, any declared recorders including ones that replace automatic ones, and every recorder name", "why_tests_cant": "The list is assembled per node by regenerating the automatic names and comparing them with the declared ones; a test sees a few documents, not every mixture of declared, automatic and overriding recorders over any tree.", "anchors": ["pvtrace/studio/server.py: StudioSession.scene_payload, apply_patch (delete-recorder)", "pvtrace/cli/parse.py: auto_recorders", "pvtrace/studio/static/app.js: buildRecorderFields"]}
{"id": "C125", "title": "Only the sum of the coefficients counts: a component may be written as several", "statement": "If every component of a material is replaced by one or more components of the same kind, with the same emission spectrum, quantum yield, lifetimes and phase function, whose absorption coefficients add up to that of the original at every wavelength, then nothing changes but the names: with the same random numbers the Python tracer yields the same events, positions, directions, wavelengths, path lengths and times, the engine records the same histories, and every recorder shows the same counts, sums and bins.", "quantifier": "every scene, every way to split the components of all its materials, every ray or bundle, every sequence of random numbers, all limits, recorders and thread schedules", "why_tests_cant": "Equality must hold for every number drawn when the component is chosen, also at the edges of the intervals, and through histories of any length; a test compares a few seeds.", "anchors": ["pvtrace/material/material.py: Material.penetration_depth, Material.component", "pvtrace/algorithm/photon_tracer.py: step_forward", "pvtrace/engine/_kernel.pyx: trace_one (component selection)"]}
{"id": "C126", "title": "The order in which the components of a material are listed changes no chance", "statement": "Listing the components of the materials of a scene in another order changes which random number chooses which component, and so single runs, but no statistics: every question about the complete history of a ray (events, places, directions, wavelengths, times, names) has the same chance in the Python tracer and in the engine, every question about what the engine adds to its recorders has the same chance, and so has every joint question about the histories of a simulation with any lights.", "quantifier": "every scene with accepted components, every reordering of the components of all its materials, every ray, all lights, all limits and emission methods, every Borel question; numbers independent and uniform on [0, 1)", "why_tests_cant": "The runs differ for the same seed, so a test can only compare averages within statistical error, and only for the questions it asks; the property is equality of all probabilities.", "anchors": ["pvtrace/material/material.py: Material.component, Material.penetration_depth", "pvtrace/algorithm/photon_tracer.py: step_forward", "pvtrace/engine/_kernel.pyx: trace_one (component selection)", "pvtrace/scene/scene.py: do_simulation"]}
{"id": "C127", "title": "In the long run every light counts the same", "statement": "In a simulation with several lights the share of rays with any given fate tends, with probability one, to the plain mean over the lights of the chance of that fate when the light is the only one in the scene; after k rays of m lights it is within eps + m/k of this mean except with chance 2 exp(-2 k eps^2). So the order in which the lights are listed does not change the result, and groups of lights contribute in proportion to their number. A bundle of the engine that takes beams in turn has recorder shares that tend to the mean over the beams.", "quantifier": "every scene, any positive number of lights of any kind, every Borel question about a history, any number of rays, numbers independent and uniform; engine: every number of threads and schedule", "why_tests_cant": "Statements about limits, error probabilities and all questions at once; a test sees one finite sample.", "anchors": ["pvtrace/scene/scene.py: Scene.emit, do_simulation", "pvtrace/light/light.py: Light.emit", "pvtrace/engine/emit.py: emit_bundle", "pvtrace/engine/_kernel.pyx: trace_bundle"]}
{"id": "C128", "title": "A history can be resumed at any event, and the clock may start anywhere", "statement": "If the ray of any event after which it travels on (transmission, reflection, emission, scattering) is traced on its own, with the number of trips already made taken off the step limit and with the random numbers that are still to come, its history is a generation event followed by exactly the remaining events of the original history, with the same ending. So what happens next depends on the ray alone, not on how it got there. If a ray starts with another clock time or another distance travelled (and the distance limit is moved along with it), the history is the same but for these two numbers, which are shifted by the same amounts in every event.", "quantifier": "every scene, ray, step limit and distance limit, every sequence of random numbers, every event of the history after which the ray travels on, every shift", "why_tests_cant": "Quantifies over all histories and every place in them at which they can be cut.", "anchors": ["pvtrace/algorithm/photon_tracer.py: step_forward, follow", "pvtrace/light/ray.py: Ray.propagate", "pvtrace/material/component.py: Luminophore.emit, Absorber.nonradiative_absorb, Scatterer.emit"]}
{"id": "C129", "title": "Raising a limit only continues killed rays, and the killed rays bound the change", "statement": "If a ray is traced with the same random numbers and a higher maxsteps or maxpathlength, its history is the same unless it had been killed; if it had been killed, the new history begins with everything that happened before the kill. So every kind of event except kills occurs at least as often, a ray killed under the higher limits is killed under the lower ones, and for every question about a history the chances under the two limits differ by at most the chance of being killed. In the engine, for the same bundle and seeds and any threads: with a higher maxsteps every recorder other than those for killed rays reports at least as many rays, crossings and entries in every bin; if every object has a recorder for killed rays, no recorder or bin gains more than these report together, and if they report none then no result changes.", "quantifier": "every scene, ray, pair of limits, sequence of random numbers, question about a history; engine: every bundle, every set of recorders, every number of threads and schedule, every logging setting", "why_tests_cant": "Ranges over all pairs of limits, all histories and all schedules; killed rays are rare and their bias is usually below the noise of a test.", "anchors": ["pvtrace/algorithm/photon_tracer.py: step_forward", "pvtrace/engine/_kernel.pyx: trace_one, tally, trace_bundle", "pvtrace/engine/api.py: simulate, EngineResult.recorders"]}
{"id": "C130", "title": "Recorders only watch", "statement": "Attaching, removing, renaming or reordering recorders changes nothing but the list of reports. The event log of the engine is the same whatever recorders there are. A recorder reports the same rays, crossings, means and deviations whatever other recorders there are, wherever it stands in their order, whatever it is called and whatever histograms it keeps; and every histogram has the same bins whatever other histograms are kept.", "quantifier": "every scene and bundle, every two sets of recorders the compiler accepts, every number of threads and schedule in each of the two runs, every logging setting", "why_tests_cant": "Ranges over all pairs of recorder sets and all schedules; the recorders share flat tables, so an error shows only for particular combinations of recorders and histograms.", "anchors": ["pvtrace/engine/_kernel.pyx: tally, trace_one, trace_bundle", "pvtrace/engine/compiler.py: _compile_recorders", "pvtrace/engine/api.py: EngineResult.recorders", "pvtrace/engine/recorder.py: Recorder, Histogram, Heatmap"]}
{"id": "C131", "title": "Event counts agree with the histories and balance", "statement": "EngineResult.event_counts() lists exactly the events that occur in EngineResult.histories(), each once, with the number of times it occurs there. With max_events at least 1 the counts balance even where the budget cuts histories short: one generate per recorded ray, as many absorptions as emissions, scatterings, non-radiative losses and reactions together, and at most one final event (exit, loss, reaction or kill) per recorded ray; exactly one if no history is cut short and no ray misses everything.", "quantifier": "every scene, bundle of rays, record_every, max_events, maxsteps, number of threads and interleaving of the threads' writes", "why_tests_cant": "A test compares the two for one run; that the mask reads exactly the rows the histories read, and that a cut never separates an absorption from what follows it, must hold for every scene, budget and schedule.", "anchors": ["pvtrace/engine/api.py:EngineResult.event_counts", "pvtrace/engine/api.py:EngineResult.histories", "pvtrace/engine/_kernel.pyx:trace_one"]}
{"id": "C132", "title": "Meshes are hit in order and entered and left correctly", "statement": "The intersections of a Mesh are exactly those trimesh finds, nearest first, so the first one is the nearest point where the ray crosses a face. At every one of them normal() succeeds with the outward unit normal of a face the point lies on. is_entering() is right wherever a ray hits a convex mesh, on edges and corners too: true if the ray goes on to the inside, false if it comes from there; a ray starting inside leaves wherever it hits. The mesh is centred on its centre of mass, and making another Mesh of the same object changes nothing more.", "quantifier": "every mesh of triangles, ray, and library whose queries are correct for that mesh", "why_tests_cant": "A test tries a few rays on one file; edges and corners, where the nearest face is ambiguous, have measure zero and are never hit by sampled rays.", "anchors": ["pvtrace/geometry/mesh.py:Mesh.__init__", "pvtrace/geometry/mesh.py:Mesh.intersections", "pvtrace/geometry/mesh.py:Mesh.normal", "pvtrace/geometry/mesh.py:Mesh.is_entering"]}
{"id": "C133", "title": "The chances of a ray obey the first-step equation", "statement": "In every scene, the chance that the history of a ray has a given property equals the average, over what its next pass does (miss, exit, absorption with or without re-emission, reflection, transmission, give-up), of the chance that the ray as it is then, traced afresh with one step less, completes the history. For how a ray ends up (leaves, is lost, reacts, is given up), the history before the pass plays no part. Hence a function of the ray that does not increase on average over a pass, counting 1 for ending up in the given way, bounds the chance of ending up so, whatever the step limit; and without a step limit the chances of leaving, being lost or reacting are the least solution of the first-step equation.", "quantifier": "for every scene of the library, mesh with Borel answers, emission method, path limit, step limit, ray, and Borel condition on histories", "why_tests_cant": "It equates a probability with an average of probabilities over all random sequences; a simulation only samples both sides.", "anchors": ["pvtrace/algorithm/photon_tracer.py:step_forward", "pvtrace/algorithm/photon_tracer.py:follow"]}
{"id": "C134", "title": "Runs in the studio follow the buttons, and the page shows the run it labels", "statement": "Whatever the order in which commands, edits, disconnections and the turns of runs interleave: the messages of each run are its announcement, its bundles in order without gaps or doubles, and at most one final 'done'; a 'done' that was not caused by a stop means that all bundles were sent; after a stop no results arrive until a new run is asked for; every run ends after at most its bundles plus three turns; and the counts on the page belong to the run and the scene its labels are made for, also when a run is started while another is going on.", "quantifier": "for every sequence of edits, run and stop commands, disconnections and turns of any number of concurrent runs of any length, including runs whose tracing raises", "why_tests_cant": "It quantifies over all interleavings of the websocket handler, the requests and the tasks; a test fixes one.", "anchors": ["pvtrace/studio/server.py:websocket", "pvtrace/studio/server.py:run", "pvtrace/studio/static/app.js:startRun", "pvtrace/studio/static/app.js:connect"]}
{"id": "C135", "title": "Every recorder of a scene is in the results", "statement": "The results of an engine run have exactly one entry for each recorder attached to a node of the scene, each is evaluated at the node it was attached to, and the entries are the same as those of the recorders evaluated from Python histories of the same scene.", "quantifier": "for every scene tree, with any recorders on any nodes, with or without geometry", "why_tests_cant": "It quantifies over all trees and all placements of recorders; tests attach recorders to nodes with a geometry.", "anchors": ["pvtrace/engine/compiler.py:CompiledScene._compile_recorders", "pvtrace/engine/api.py:EngineResult.recorders", "pvtrace/engine/tally.py:tally_histories"]}
{"id": "C136", "title": "Tables with values that are not numbers are refused", "statement": "A distribution is made from a table exactly if the wavelengths ascend and all values are finite and not negative; anything else, such as a missing value in a spectrum file, is a ValueError. The cumulative distribution of every table that is accepted consists of numbers from 0 to 1 and ends at 1.", "quantifier": "for every table of any length whose values may be finite, infinite or not a number, read as a histogram or interpolated", "why_tests_cant": "It quantifies over all tables and all places where a value can be missing or infinite; the tests use clean tables.", "anchors": ["pvtrace/material/distribution.py:Distribution.__init__"]}
{"id": "C137", "title": "The lines on the studio page are the paths of the first recorded rays", "statement": "Whatever was drawn before, the messages of a run leave on the page the paths that were sent, in order, and nothing else: those of two points or more, up to 400. With the default limit (and any up to 400) none that was sent is missing, and if no recorded ray has a single event the lines are exactly the histories of the first recorded rays of the run, as many as the limit allows, however the run is split into bundles and threads.", "quantifier": "for every scene, every list of bundles, every schedule of the threads, every recording interval, every limit and every earlier state of the page", "why_tests_cant": "It quantifies over all splits into bundles, all schedules and all numbers of paths; the page has no tests.", "anchors": ["pvtrace/studio/static/app.js:addPaths", "pvtrace/studio/static/app.js:clearPaths", "pvtrace/studio/server.py:_extract_paths", "pvtrace/studio/server.py:create_app"]}
{"id": "C138", "title": "Colours on the studio page tell visible wavelengths apart", "statement": "The colour of a path or bar on the studio page has components between the floor and 1 of which one is 1, whatever the wavelength; two wavelengths between 380 and 645 nm have different colours; light below 380 nm is drawn as 380 nm and all light above 645 nm in the same red; and colours do not jump: a change by d nm changes no component by more than d/20. From 440 to 700 nm the renderer of the library gives whole wavelengths the same colours, without the floor.", "quantifier": "for every real wavelength and every floor from 0 up to but not including 1", "why_tests_cant": "It quantifies over all pairs of wavelengths, including the seams between the cases; the page has no tests.", "anchors": ["pvtrace/studio/static/app.js:wavelengthToColor", "pvtrace/light/utils.py:wavelength_to_rgb"]}
{"id": "C139", "title": "The wavelength field of a light shows and sets the wavelength of the light", "statement": "In the studio inspector of a node with a light, the wavelength field shows the wavelength of the rays that the light emits, and committing a value in it makes that the wavelength of the light, changing nothing else of the light.", "quantifier": "for every document, every light section that can be read and every committed text, a number or not", "why_tests_cant": "It ranges over all light sections, with and without masks, and relates the page, the server's edit and the reader of scene files; the page has no tests.", "anchors": ["pvtrace/studio/static/app.js:numberField", "pvtrace/studio/static/app.js:renderInspector", "pvtrace/studio/server.py:set", "pvtrace/cli/parse.py:parse_light"]}
{"id": "C140", "title": "The cone field of a light shows and sets the cone of the light", "statement": "In the studio inspector of a light with a cone, the cone field shows the half-angle in degrees of the cone that the light emits into. Committing a number in it makes that the half-angle, and committing an empty field makes it 0; the wavelength, the positions and the name of the light stay as they are.", "quantifier": "for every document, every light section that can be read and gives its direction in one way only, and every committed text, a number or not", "why_tests_cant": "It ranges over all light sections with all masks, and relates the page, the server's edit and the reader of scene files; the page has no tests.", "anchors": ["pvtrace/studio/static/app.js:renderInspector", "pvtrace/studio/static/app.js:numberField", "pvtrace/studio/server.py:set", "pvtrace/cli/parse.py:parse_light", "pvtrace/cli/parse.py:parse_direction_mask"]}
