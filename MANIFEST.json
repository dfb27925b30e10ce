{
 "claims": [
  {
   "property": "C01",
   "status": "proved",
   "theorems": [
    "PV.Tracer.history_grammar",
    "PV.Tracer.follow_grammar"
   ],
   "note": "every history produced by the tracer loop, for arbitrary scene, material and surface oracles and every random stream, belongs to the grammar of Spec/Grammar"
  },
  {
   "property": "C02",
   "status": "proved",
   "theorems": [
    "PV.Tracer.terminates",
    "PV.Tracer.history_bounded",
    "PV.Tracer.ends_terminal_or_miss",
    "PV.Tracer.kill_reason"
   ],
   "note": "termination, length bound and last event of every history"
  },
  {
   "property": "C03",
   "status": "proved",
   "theorems": [
    "PV.Library.travelled_duration",
    "PV.Library.monotone_clock",
    "PV.Library.killed_before_flight",
    "PV.Library.lawful",
    "PV.Tracer.travelled_duration",
    "PV.Tracer.monotone_clock",
    "PV.Tracer.killed_before_flight"
   ],
   "note": "for every Sound scene made of the library shapes, surfaces and components (positive indices, rigid poses, accepted spectra, lifetimes >= 0); the PV.Tracer versions hold for any surfaces and components satisfying Lawful"
  },
  {
   "property": "C04",
   "status": "proved",
   "theorems": [
    "PV.Library.straight_lines",
    "PV.Library.lawful",
    "PV.Tracer.straight_lines"
   ],
   "note": "as C03"
  },
  {
   "property": "C05",
   "status": "proved",
   "theorems": [
    "PV.Library.what_changes",
    "PV.Library.source_follows",
    "PV.Library.lawful",
    "PV.Tracer.what_changes"
   ],
   "note": "as C03"
  },
  {
   "property": "C06",
   "status": "proved",
   "theorems": [
    "PV.NextHit.container_innermost"
   ],
   "note": "valid scenes of convex (interval) objects, disjoint/touching or strictly nested; rays starting inside or on a surface"
  },
  {
   "property": "C07",
   "status": "partial",
   "theorems": [
    "PV.NextHit.hit_and_adjacent_partial",
    "PV.NextHit.adjacent_iff_partial",
    "PV.NextHit.adjacent_wrong"
   ],
   "note": "nearest surface, container != adjacent, none only at the root are proved; adjacent = object behind the surface is violated when a sibling lies ahead (adjacent_wrong), the exact condition is adjacent_iff_partial"
  },
  {
   "property": "C08",
   "status": "proved",
   "theorems": [
    "PV.NextHit.kernel_eq_python",
    "PV.NextHit.kernel_fallback",
    "PV.NextHit.hits_fit"
   ],
   "note": "equal for all intersection lists, except that Python raises ValueError and the engine falls back to the hit node when no node is hit exactly once (kernel_fallback)"
  },
  {
   "property": "C09",
   "status": "partial",
   "theorems": [
    "PV.Library.run_agrees",
    "PV.Library.engine_matches_python_partial",
    "PV.Library.engine_follows_python",
    "PV.Library.ball_regular",
    "PV.Phase.emission_differs"
   ],
   "note": "For every schedule, bundle, record_every and budget, the history of a ray equals the events of the Python tracer, provided the scene is `Supported` and every state the ray goes through is `RegularState` (Spec/Agreement): not nearly tangent to a sphere, not through a cylinder rim, trimesh and the slab test agree, no grazing incidence, no tie in the choice of the component, re-emitting nodes not rotated. Each condition excludes a recorded disagreement; `emission_differs` shows the unrestricted property fails. Missing: real floating point."
  },
  {
   "property": "C10",
   "status": "proved",
   "theorems": [
    "PV.Tally.tally_exact",
    "PV.Tally.recorded_length",
    "PV.Tally.raysWith_le_crossings",
    "PV.Tally.bin_lt",
    "PV.Tally.bins_total",
    "PV.Tally.recorder_counts",
    "PV.Tally.equal_names_miss_rays"
   ],
   "note": "For recorders with distinct names; with equal names the property fails (witness). The engine side is C11."
  },
  {
   "property": "C11",
   "status": "partial",
   "theorems": [
    "PV.EngineTally.engine_equals_python_partial",
    "PV.EngineTally.missing_neighbour_differs",
    "PV.EngineTally.same_names_differ"
   ],
   "note": "For every bundle, number of threads and schedule with record_every = 1: tally_histories on the engine's histories does not fail and gives exactly the counts, sums and bins of the engine, when node names are unique, surfaces inside the world have two sides and the Python normal at EXIT agrees with the kernel's. The two witnesses show that the first two conditions cannot be dropped, so the property as stated is violated for such scenes."
  },
  {
   "property": "C12",
   "status": "partial",
   "theorems": [
    "PV.Budget.tallies_independent_partial",
    "PV.Budget.large_budget_suffices",
    "PV.Budget.full_history_complete",
    "PV.Budget.budget_changes_tallies"
   ],
   "note": "False in general (witness): the event budget stops recorded rays only and does not tally them. Proved for budgets that are not reached."
  },
  {
   "property": "C13",
   "status": "proved",
   "theorems": [
    "PV.EventLog.schedule_independent",
    "PV.EventLog.thread_slices",
    "PV.EventLog.sequential",
    "PV.EventLog.interleaved_execution"
   ],
   "note": "Every interleaving of single writes; sums in exact arithmetic."
  },
  {
   "property": "C14",
   "status": "partial",
   "theorems": [
    "PV.Tally.bin_exact",
    "PV.Tally.bin_iff_partial",
    "PV.Tally.edge_ends",
    "PV.Tally.beyond_stop",
    "PV.Tally.inside_counted",
    "PV.Tally.below_start_counted",
    "PV.Tally.heat_bin_partial",
    "PV.Tally.heat_counts_partial"
   ],
   "note": "Holds for every value not below start; values up to one bin width below start are counted in bin 0 (witness)."
  },
  {
   "property": "C15",
   "status": "proved",
   "theorems": [
    "PV.Tally.statistics"
   ],
   "note": ""
  },
  {
   "property": "C16",
   "status": "proved",
   "theorems": [
    "PV.RecTables.slices_partition",
    "PV.RecTables.hist_row",
    "PV.RecTables.hist_row_injective",
    "PV.RecTables.bin_in_slice",
    "PV.RecTables.increment_local",
    "PV.RecTables.tally_in_bounds",
    "PV.RecTables.seen_in_bounds"
   ],
   "note": "The bin slices of all histograms of all recorders partition the flat bin buffer, the row of each histogram is its own, every bin the kernel computes lies in the slice of the histogram it was computed for and its local position is the bin of the Python histogram, and every tally effect of every kernel run stays inside the buffers."
  },
  {
   "property": "C17",
   "status": "proved",
   "theorems": [
    "PV.EventLog.rows_in_bounds",
    "PV.EventLog.rows_disjoint",
    "PV.EventLog.counts_in_bounds"
   ],
   "note": ""
  },
  {
   "property": "C18",
   "status": "proved",
   "theorems": [
    "PV.EventLog.histories_exact",
    "PV.EventLog.recorded_indices",
    "PV.EventLog.code_round_trip"
   ],
   "note": ""
  },
  {
   "property": "C19",
   "status": "partial",
   "theorems": [
    "PV.Budget.history_complete_partial",
    "PV.Budget.history_prefix",
    "PV.Budget.full_history_complete",
    "PV.Budget.reemission_hides_end",
    "PV.Budget.budget_one"
   ],
   "note": "False when re-emission fills the log (witness); all other histories are complete."
  },
  {
   "property": "C20",
   "status": "proved",
   "theorems": [
    "PV.Rng.uniform_grid",
    "PV.Rng.log_argument_pos",
    "PV.Rng.uniform_range_sharp"
   ],
   "note": "bit-exact model of rng_uniform over BitVec 64; the double product is exact"
  },
  {
   "property": "C21",
   "status": "proved",
   "theorems": [
    "PV.Rng.rayState_injective",
    "PV.Rng.streams_never_merge",
    "PV.Rng.never_zero",
    "PV.Rng.seed_words_distinct",
    "PV.Rng.step_bijective",
    "PV.Rng.rayState_shift"
   ],
   "note": "bit-exact model of splitmix64 seeding and xoshiro256+ step"
  },
  {
   "property": "C22",
   "status": "proved",
   "theorems": [
    "PV.Simulate.shares_spec",
    "PV.Simulate.one_history_per_ray",
    "PV.Simulate.fails_only",
    "PV.Simulate.seed_raises",
    "PV.Simulate.seeded_reproducible"
   ],
   "note": "emission and tracing of one ray are abstract operations on a generator state"
  },
  {
   "property": "C23",
   "status": "proved",
   "theorems": [
    "PV.Simulate.lights_in_rotation",
    "PV.Simulate.bundle_same_light",
    "PV.Simulate.rays_per_light",
    "PV.Simulate.no_lights"
   ],
   "note": ""
  },
  {
   "property": "C24",
   "status": "partial",
   "theorems": [
    "PV.Simulate.stream_covers",
    "PV.Simulate.stream_generators",
    "PV.Simulate.stream_tallies_partial",
    "PV.Simulate.stream_histories_partial",
    "PV.Simulate.stream_tallies_differ",
    "PV.Simulate.stream_histories_differ",
    "PV.Simulate.stream_zero_bundle"
   ],
   "note": "holds for record_every <= 1 or a sufficient event budget; violated otherwise (witnesses proved)"
  },
  {
   "property": "C25",
   "status": "partial",
   "theorems": [
    "PV.Database.written_once",
    "PV.Database.histories_recovered_partial",
    "PV.Database.nothing_lost",
    "PV.Database.never_blocks",
    "PV.Database.reused_process_merges_rays"
   ],
   "note": "distinct throw ids hold when every task has its own process; violated when a pool process is reused (witness proved)"
  },
  {
   "property": "C26",
   "status": "proved",
   "theorems": [
    "PV.Database.end_rays_keep_ends",
    "PV.Database.end_rays_same_answers",
    "PV.Database.end_rays_filter_rows"
   ],
   "note": "answers compared across runs for distinct processes; for one order of arrival without that assumption"
  },
  {
   "property": "C27",
   "status": "partial",
   "theorems": [
    "PV.Database.count_eq",
    "PV.Database.count_eq_recorder_partial",
    "PV.Database.reused_process_merges_rays"
   ],
   "note": "holds when every task has its own process; violated otherwise (witness proved)"
  },
  {
   "property": "C28",
   "status": "proved",
   "theorems": [
    "PV.Database.options_narrow",
    "PV.Database.count_le_throws",
    "PV.Database.volume_ignores_surface_options",
    "PV.Database.facet_finds_nothing",
    "PV.Database.empty_source_counts_all"
   ],
   "note": "for every database content"
  },
  {
   "property": "C29",
   "status": "proved",
   "theorems": [
    "PV.Dist.accepted_iff",
    "PV.Dist.cdf_is_cdf",
    "PV.Dist.sample_eq",
    "PV.Dist.lookup_eq",
    "PV.Dist.sample_range_mono",
    "PV.Dist.lookup_sample",
    "PV.Dist.sample_lookup",
    "PV.Dist.out_of_range_raises",
    "PV.Dist.call_nonneg",
    "PV.Dist.hist_sample",
    "PV.Dist.hist_lookup",
    "PV.Dist.hist_starts_above_zero"
   ],
   "note": "tables with a positive total; an all-zero table is accepted by the code and yields NaN (outside the model); the cumulative curve of a histogram starts above zero (hist_starts_above_zero)"
  },
  {
   "property": "C30",
   "status": "partial",
   "theorems": [
    "PV.Material.redshift",
    "PV.Material.thermal_bound",
    "PV.Material.redshift_raises",
    "PV.Material.redshift_hist",
    "PV.Material.redshift_hist_violated",
    "PV.Material.engine_eq_python_emit",
    "PV.Material.engine_redshift_partial",
    "PV.Material.engine_blueshift_above",
    "PV.Material.engine_blueshift_zero"
   ],
   "note": "proved for Python with interpolated spectra and histograms without empty bins; violated by Python for histograms with empty bins (redshift_hist_violated) and by the engine above the emission spectrum or at u=0 (engine_blueshift_above, engine_blueshift_zero)"
  },
  {
   "property": "C31",
   "status": "proved",
   "theorems": [
    "PV.Dist.kInterp_total",
    "PV.Dist.kInterp_knot",
    "PV.Dist.kInterp_eq_numpy",
    "PV.Dist.kInterp_bounds"
   ],
   "note": "the binary search never reads outside the table, agrees with numpy.interp and stays within the table's values"
  },
  {
   "property": "C32",
   "status": "proved",
   "theorems": [
    "PV.Material.depth_nonneg",
    "PV.Material.transparent_never_absorbs",
    "PV.Material.beer_lambert",
    "PV.Material.absorbed_on_segment",
    "PV.Material.engine_depth",
    "PV.Material.negative_coefficient"
   ],
   "note": "coefficients are assumed non-negative; constructors do not check constants (negative_coefficient)"
  },
  {
   "property": "C33",
   "status": "partial",
   "theorems": [
    "PV.Material.component_interval",
    "PV.Material.component_total",
    "PV.Material.component_probability",
    "PV.Material.component_absorbs",
    "PV.Material.engine_component_interval",
    "PV.Material.engine_component_probability",
    "PV.Material.engine_component_pos_partial",
    "PV.Material.engine_picks_zero",
    "PV.Material.engine_eq_python_pick",
    "PV.Material.engine_coefficient"
   ],
   "note": "proved for Python; the engine's intervals have the right length but the endpoint u=0 selects the first component even if its coefficient is zero (engine_picks_zero)"
  },
  {
   "property": "C34",
   "status": "partial",
   "theorems": [
    "PV.Material.yield_of_lifetimes",
    "PV.Material.yield_of_argument_partial",
    "PV.Material.yield_missing",
    "PV.Material.radiative",
    "PV.Material.absorber_yield",
    "PV.Material.yield_not_checked"
   ],
   "note": "the range [0,1] holds for lifetimes and for arguments in [0,1]; an explicit quantum_yield is not range checked (yield_not_checked) and Absorber(tau_nr) reports yield 1 (absorber_yield) although it never re-emits"
  },
  {
   "property": "C35",
   "status": "proved",
   "theorems": [
    "PV.Optics.reflectivity_range",
    "PV.Optics.reflectivity_tir",
    "PV.Optics.reflectivity_lt_one",
    "PV.Optics.reflectivity_normal",
    "PV.Optics.reflectivity_equal",
    "PV.Optics.reflectivity_reverse",
    "PV.Optics.engine_reflectivity",
    "PV.Optics.reflectivity_grazing_nan",
    "PV.Angle.angle_right"
   ],
   "note": "real arithmetic; at exactly grazing incidence with equal indices both codes yield NaN (reflectivity_grazing_nan)"
  },
  {
   "property": "C36",
   "status": "proved",
   "theorems": [
    "PV.Optics.reflection",
    "PV.Optics.reflection_side"
   ],
   "note": "both codes"
  },
  {
   "property": "C37",
   "status": "proved",
   "theorems": [
    "PV.Optics.refraction",
    "PV.Optics.refraction_snell",
    "PV.Optics.refraction_equal",
    "PV.Optics.refraction_reverse",
    "PV.Optics.engine_refract"
   ],
   "note": "both codes; reversibility strictly below the critical angle"
  },
  {
   "property": "C38",
   "status": "proved",
   "theorems": [
    "PV.Optics.engine_transmit_defined",
    "PV.Optics.transmit_defined",
    "PV.Optics.tir_always_reflects"
   ],
   "note": "Python: index ratio up to 10^4, because angle_between rounds nearly perpendicular incidence to perpendicular"
  },
  {
   "property": "C39",
   "status": "proved",
   "theorems": [
    "PV.Phase.draw_unit",
    "PV.Phase.engine_unit",
    "PV.Phase.isotropic_law",
    "PV.Phase.cone_within",
    "PV.Phase.cone_accepts",
    "PV.Phase.lambertian_law",
    "PV.Phase.hg_law",
    "PV.Phase.hg_z",
    "PV.Phase.hg_total",
    "PV.Phase.hg_zero_raises",
    "PV.Phase.engine_eq_python",
    "PV.Phase.hg_tiny_extra_draw"
   ],
   "note": "both codes"
  },
  {
   "property": "C40",
   "status": "partial",
   "theorems": [
    "PV.Optics.directions_equivariant_partial",
    "PV.Optics.engine_eq_python",
    "PV.Optics.shortcut_frame_dependent"
   ],
   "note": "directions are equal for every rigid placement; reflectivity is equal unless the allclose shortcut of angle_between applies, which is frame dependent (shortcut_frame_dependent)"
  },
  {
   "property": "C41",
   "status": "partial",
   "theorems": [
    "PV.Phase.emission_agrees_partial",
    "PV.Phase.python_cone_follows_object",
    "PV.Phase.engine_cone_follows_world",
    "PV.Phase.emission_differs"
   ],
   "note": "violated: the engine emits relative to the world axes (emission_differs); equal when the container is not rotated (emission_agrees_partial)"
  },
  {
   "property": "C42",
   "status": "proved",
   "theorems": [
    "PV.Geometry.box_crossings",
    "PV.Geometry.box_miss",
    "PV.Geometry.box_span",
    "PV.Geometry.engine_span",
    "PV.Geometry.engine_parity"
   ],
   "note": "Engine, over the reals, unit direction with components zero or at least 1e-300. The Python box is delegated to trimesh and not modelled."
  },
  {
   "property": "C43",
   "status": "partial",
   "theorems": [
    "PV.Geometry.sphere_engine",
    "PV.Geometry.sphere_engine_sorted",
    "PV.Geometry.sphere_span",
    "PV.Geometry.sphere_python_partial",
    "PV.Geometry.sphere_agree",
    "PV.Geometry.near_tangent",
    "PV.Geometry.small_sphere"
   ],
   "note": "Engine proved in full. Python proved when the discriminant is negative or above 1e-8; for near-tangent lines the property is violated (near_tangent, small_sphere)."
  },
  {
   "property": "C44",
   "status": "partial",
   "theorems": [
    "PV.Geometry.cylinder_engine_sound",
    "PV.Geometry.cylinder_engine_complete",
    "PV.Geometry.cylinder_span",
    "PV.Geometry.cylinder_python_sound",
    "PV.Geometry.cylinder_python_complete_partial",
    "PV.Geometry.cylinder_python_sorted",
    "PV.Geometry.cylinder_agree",
    "PV.Geometry.python_span_partial",
    "PV.Geometry.rim_missed"
   ],
   "note": "Engine: sound and complete, each end of a chord through the interior reported once. Python: sound, complete off the rims; through a rim it is violated (rim_missed)."
  },
  {
   "property": "C45",
   "status": "proved",
   "theorems": [
    "PV.Geometry.engine_normal",
    "PV.Geometry.python_normal",
    "PV.Geometry.on_surface_partial",
    "PV.Geometry.is_entering",
    "PV.Geometry.edge_raises",
    "PV.Geometry.side_point_gets_cap_normal"
   ],
   "note": "Off edges by the comparison tolerances; the two last theorems show what happens within them."
  },
  {
   "property": "C46",
   "status": "proved",
   "theorems": [
    "PV.Node.transformationTo_eq",
    "PV.Node.point_roundtrip",
    "PV.Node.vector_roundtrip",
    "PV.Node.point_via",
    "PV.Node.vector_via",
    "PV.Node.point_difference",
    "PV.Node.point_to_parent",
    "PV.Node.dot_preserved",
    "PV.Node.distance_preserved",
    "PV.Node.engine_world_to_local",
    "PV.Node.scene_intersections"
   ],
   "note": "Any tree of nodes over any commutative ring; numpy.linalg.inv is assumed to invert."
  },
  {
   "property": "C47",
   "status": "partial",
   "theorems": [
    "PV.Pose.location_eq_partial",
    "PV.Pose.rotate_keeps_location",
    "PV.Pose.stays_rigid",
    "PV.Pose.integer_pose_truncates",
    "PV.Pose.integer_location_raises"
   ],
   "note": "Proved for poses assigned as float matrices; violated for integer matrices (integer_pose_truncates)."
  },
  {
   "property": "C48",
   "status": "partial",
   "theorems": [
    "PV.Pose.look_at_partial",
    "PV.Pose.lookAt_rotation",
    "PV.Pose.rotation_rotationMatrix",
    "PV.Pose.eigAxis_exists",
    "PV.Pose.look_at_snaps",
    "PV.Pose.look_at_unnormalised"
   ],
   "note": "Proved for (0,0,-1) and for unit vectors outside the tolerance around it, given an exact eigenvector; violated close to (0,0,-1) (look_at_snaps)."
  },
  {
   "property": "C49",
   "status": "proved",
   "theorems": [
    "PV.Light.hex_value",
    "PV.Light.hex_range",
    "PV.Light.hex_injective",
    "PV.Light.rgb_valid",
    "PV.Light.black_iff"
   ],
   "note": "All integer triples; also the colour of every wavelength."
  },
  {
   "property": "C50",
   "status": "proved",
   "theorems": [
    "PV.Light.rect_inside",
    "PV.Light.cube_inside",
    "PV.Light.circle_inside",
    "PV.Light.emitted_valid"
   ],
   "note": "Real arithmetic."
  },
  {
   "property": "C51",
   "status": "proved",
   "theorems": [
    "PV.Studio.unique_fresh",
    "PV.Studio.additions",
    "PV.Studio.face_recorders",
    "PV.Studio.component_deleted",
    "PV.Studio.node_deleted",
    "PV.Studio.failure_atomic",
    "PV.Studio.scene_in_step"
   ],
   "note": "failure_atomic takes the viewport payload to be total, since the state is assigned before it is built; YAML loading and scene parsing are abstract"
  },
  {
   "property": "C52",
   "status": "proved",
   "theorems": [
    "PV.Doc.declared_kept",
    "PV.Doc.nothing_else",
    "PV.Doc.auto_added",
    "PV.Doc.names_distinct"
   ],
   "note": ""
  },
  {
   "property": "C53",
   "status": "partial",
   "theorems": [
    "PV.Lsc.rows_account",
    "PV.Lsc.out_columns",
    "PV.Lsc.counts_add_up_partial",
    "PV.Lsc.counts_current_partial",
    "PV.Lsc.summary_splits",
    "PV.Lsc.loss_always_zero",
    "PV.Lsc.shortfall",
    "PV.Lsc.summary_wrong"
   ],
   "note": "false in general: losses are never counted (loss_always_zero, shortfall); the counts add up if every ray exits or is killed on a facet (counts_add_up_partial)"
  },
  {
   "property": "C54",
   "status": "partial",
   "theorems": [
    "PV.Renderer.identifiers_unique",
    "PV.Renderer.bounded",
    "PV.Renderer.latest_kept_partial",
    "PV.Renderer.passing_left_out",
    "PV.Renderer.one_history_shows_none",
    "PV.Renderer.no_histories_raises",
    "PV.Renderer.baubles_stay"
   ],
   "note": "Identifiers and the bound are proved for all sequences of calls. Removal of every object of an evicted path is false for baubles."
  },
  {
   "property": "C55",
   "status": "partial",
   "theorems": [
    "PV.Pose.rotate_axis_frame",
    "PV.Pose.rotate_parent_axis_partial"
   ],
   "note": "Violated: witness rotate_axis_frame. What holds is the statement for the parent's coordinate system."
  },
  {
   "property": "C56",
   "status": "proved",
   "theorems": [
    "PV.Library.surface_events"
   ],
   "note": "exact for boxes and cylinders; for a sphere touched almost tangentially the midpoint of the chord is reported (squared distance error at most 2.5e-9, see C43). Box intersections come from trimesh and are assumed to lie on the box."
  },
  {
   "property": "C57",
   "status": "proved",
   "theorems": [
    "PV.Library.directions_stay_unit"
   ],
   "note": "phase functions must return unit vectors, which holds for the library ones (C39)"
  },
  {
   "property": "C58",
   "status": "partial",
   "theorems": [
    "PV.Simulate.workers_restart_rotation",
    "PV.Simulate.bundles_restart_rotation"
   ],
   "note": "violated by the code; the negation is proved with witnesses"
  },
  {
   "property": "C59",
   "status": "partial",
   "theorems": [
    "PV.Simulate.equal_seeds_repeat"
   ],
   "note": "violated by the code when drawn seeds coincide; the negation is proved"
  },
  {
   "property": "C60",
   "status": "partial",
   "theorems": [
    "PV.Database.progress_counts_rays_partial",
    "PV.Database.reused_process_merges_rays"
   ],
   "note": "holds when every task has its own process; violated otherwise (witness proved)"
  },
  {
   "property": "C61",
   "status": "proved",
   "theorems": [
    "PV.Database.rendered_complete",
    "PV.Database.last_ray_not_rendered"
   ],
   "note": "for tasks in different processes"
  },
  {
   "property": "C62",
   "status": "partial",
   "theorems": [
    "PV.Database.reports_partial"
   ],
   "note": "the theorem characterises which reports fail; violated for time lost, reacted and killed"
  },
  {
   "property": "C63",
   "status": "proved",
   "theorems": [
    "PV.Light.rect_uniform",
    "PV.Light.cube_uniform",
    "PV.Light.circle_uniform"
   ],
   "note": "Lebesgue measure of the set of random numbers."
  },
  {
   "property": "C64",
   "status": "partial",
   "theorems": [
    "PV.Light.emit_count_partial",
    "PV.Light.emit_unlimited_is_empty"
   ],
   "note": "Proved for a given number; the documented unlimited mode yields nothing."
  },
  {
   "property": "C65",
   "status": "partial",
   "theorems": [
    "PV.Light.bundle_eq_emit_partial",
    "PV.Light.bundle_total",
    "PV.Light.refused_cone_emits"
   ],
   "note": "Agreement proved for regular delegates; refusal of bad cones is missing in the engine."
  },
  {
   "property": "C66",
   "status": "partial",
   "theorems": [
    "PV.Renderer.shown_exclude_partial",
    "PV.Renderer.excluded_path",
    "PV.Renderer.short_path",
    "PV.Renderer.absorbed_path_wrong"
   ],
   "note": "Holds when no earlier ray equals the last one; false for absorbed rays."
  },
  {
   "property": "C67",
   "status": "partial",
   "theorems": [
    "PV.Doc.box_auto",
    "PV.Doc.faces_partition",
    "PV.Doc.face_bins",
    "PV.AutoRecord.face_counted_partial",
    "PV.AutoRecord.rotated_missed",
    "PV.AutoRecord.turned_wrong"
   ],
   "note": "proved for boxes that are not rotated, wherever they stand (face_counted_partial); false for rotated boxes: facets are compared with world normals, so sides are missed (rotated_missed) or counted by the recorder of another face (turned_wrong)"
  },
  {
   "property": "C68",
   "status": "partial",
   "theorems": [
    "PV.Studio.materialised",
    "PV.Studio.face_materialised",
    "PV.Studio.update_local_partial",
    "PV.Studio.update_applies",
    "PV.Studio.deleted_recorder_returns",
    "PV.Studio.face_recorders_drop_histograms"
   ],
   "note": "round trip and locality proved; deletion is undone by record: true and add-face-recorders loses histograms (witnesses)"
  },
  {
   "property": "C69",
   "status": "partial",
   "theorems": [
    "PV.Run.one_scene_partial",
    "PV.Run.run_complete",
    "PV.Run.mixed_scenes"
   ],
   "note": "proved for all schedules without an edit between compilation and the start of the stream; with such an edit it is false (mixed_scenes)"
  },
  {
   "property": "C70",
   "status": "partial",
   "theorems": [
    "PV.Run.stop_stops_partial",
    "PV.Run.stopped_run_revived"
   ],
   "note": "proved for all schedules until the next run message; a run message revives a stopped run (stopped_run_revived)"
  },
  {
   "property": "C71",
   "status": "partial",
   "theorems": [
    "PV.Lsc.second_simulation_fails",
    "PV.Lsc.counts_current_partial"
   ],
   "note": "false: every second call raises (second_simulation_fails); the cached counts are those of the stored rows after any calls"
  },
  {
   "property": "C72",
   "status": "partial",
   "theorems": [
    "PV.Lsc.labelled",
    "PV.Lsc.cells_collect_partial",
    "PV.Lsc.near_far_swapped",
    "PV.Lsc.summary_wrong"
   ],
   "note": "proved for left and right; near and far are swapped between cells and labels (near_far_swapped)"
  },
  {
   "property": "C73",
   "status": "partial",
   "theorems": [
    "PV.Lsc.back_mirror_reflects_partial",
    "PV.Lsc.air_gap_mirror_transparent"
   ],
   "note": "proved for the back-surface mirror; the specular air-gap mirror lets every ray through (air_gap_mirror_transparent)"
  },
  {
   "property": "C74",
   "status": "partial",
   "theorems": [
    "PV.Contains.contains_iff",
    "PV.Contains.contains_inner",
    "PV.Contains.surface_not_contained",
    "PV.Contains.sphere_exclusive",
    "PV.Contains.cylinder_one_sided",
    "PV.Geometry.on_surface_partial"
   ],
   "note": "contains proved for all shapes (Box.contains delegates to trimesh, taken to be exact); is_on_surface holds on smooth surface points; its tolerance is one-sided for cylinders (cylinder_one_sided)"
  },
  {
   "property": "C75",
   "status": "proved",
   "theorems": [
    "PV.Compile.same_run",
    "PV.Compile.in_bounds",
    "PV.Compile.transforms_undo"
   ],
   "note": "Real numbers instead of floats; row numbers fit 32 bits. Compared with kOps of Model/Library, which C09 relates to the Python tracer."
  },
  {
   "property": "C76",
   "status": "partial",
   "theorems": [
    "PV.Compile.compiles_iff",
    "PV.Compile.accepts_iff",
    "PV.Compile.refused_partial",
    "PV.Compile.too_many_nodes",
    "PV.Compile.int_coefficient",
    "PV.Compile.overrides_ignored",
    "PV.Compile.scale_accepted"
   ],
   "note": "The code violates the property: ValueError above 128 nodes, AttributeError for integer coefficients, overridden methods ignored, slight scales accepted. Proved: the exact condition of acceptance, and refusal of everything else."
  },
  {
   "property": "C77",
   "status": "proved",
   "theorems": [
    "PV.Studio.set_exact",
    "PV.Studio.move_exact",
    "PV.Studio.recorder_deleted",
    "PV.Studio.unknown_refused"
   ],
   "note": "Stated through the value at a path. Deleting nodes and components, with the references that go with them, is C52."
  },
  {
   "property": "C78",
   "status": "partial",
   "theorems": [
    "PV.SceneFile.file_describes_partial",
    "PV.SceneFile.scene_nodes",
    "PV.SceneFile.scaled_peak",
    "PV.SceneFile.integer_file",
    "PV.SceneFile.negative_file",
    "PV.SceneFile.integer_coefficient",
    "PV.SceneFile.range_overshoots"
   ],
   "note": "The code violates the property: integer CSV files are truncated, negative spectra accepted, integer coefficients give no spectrum, ranges overshoot. Proved: everything else, and the peak for non-integer files with a positive value."
  },
  {
   "property": "C79",
   "status": "partial",
   "theorems": [
    "PV.SceneFile.loads_partial",
    "PV.SceneFile.constant_scatterer",
    "PV.SceneFile.constant_luminophore",
    "PV.SceneFile.spectrum_alone",
    "PV.SceneFile.zero_coefficient",
    "PV.SceneFile.point_masks",
    "PV.SceneFile.missing_sections",
    "PV.SceneFile.short_box"
   ],
   "note": "The code violates the property: witnesses. Proved: files that pass the schema and satisfy FileReady (Spec/SceneFile) load."
  },
  {
   "property": "C80",
   "status": "proved",
   "theorems": [
    "PV.SceneFile.references_exist",
    "PV.SceneFile.parents_lead_to_world",
    "PV.SceneFile.dangling"
   ],
   "note": "Node names are taken as distinct where needed, as the keys of a mapping are."
  },
  {
   "property": "C81",
   "status": "proved",
   "theorems": [
    "PV.Directions.isotropic_uniform",
    "PV.Directions.lambertian_cosine",
    "PV.Directions.cone_law",
    "PV.Directions.hg_phase",
    "PV.Directions.engine_laws",
    "PV.Directions.densities_normalised",
    "PV.Directions.cone_share",
    "PV.Sphere.isotropic_turned"
   ],
   "note": "Mean over the random numbers equals mean over the sphere for every function of the direction. Random numbers are taken as independent and uniform."
  },
  {
   "property": "C82",
   "status": "partial",
   "theorems": [
    "PV.Sampling.share_eq_lookup",
    "PV.Sampling.follows_spectrum_partial",
    "PV.Sampling.histogram_shares",
    "PV.Sampling.emission_law",
    "PV.Sampling.uneven_spacing_wrong",
    "PV.Sampling.inside_bin_wrong"
   ],
   "note": "Violated by the code for unevenly spaced tables and between tabulated wavelengths; proved at the tabulated wavelengths of evenly spaced tables and for histograms."
  },
  {
   "property": "C83",
   "status": "proved",
   "theorems": [
    "PV.Sampling.absorption_probability",
    "PV.Sampling.loss_probability",
    "PV.Material.component_probability",
    "PV.Material.engine_component_probability",
    "PV.Sampling.emission_probability",
    "PV.Sampling.delays_exponential",
    "PV.Sampling.reflection_probability",
    "PV.Sampling.engine_probabilities"
   ],
   "note": "Random numbers are taken as independent and uniform. Absorption, choice of component and emission are combined for one pass of the tracer."
  },
  {
   "property": "C84",
   "status": "partial",
   "theorems": [
    "PV.Sampling.histogram_shifted",
    "PV.Sampling.histogram_wrong"
   ],
   "note": "Violated by the code for every x strictly between two edges; holds at the edges."
  },
  {
   "property": "C85",
   "status": "proved",
   "theorems": [
    "PV.FileScene.file_accepted",
    "PV.FileScene.placed",
    "PV.FileScene.file_objects",
    "PV.FileScene.aimed",
    "PV.FileScene.file_same_run"
   ],
   "note": "The axis chosen for a rotation between opposite vectors is a parameter (any non-zero vector)."
  },
  {
   "property": "C86",
   "status": "partial",
   "theorems": [
    "PV.Sampling.absorption_probability",
    "PV.LastSegment.never_absorbed",
    "PV.LastSegment.engine_never_absorbs",
    "PV.LastSegment.ink_transparent",
    "PV.LastSegment.faint_never_absorbs"
   ],
   "note": "Holds on segments that end at a surface inside the scene with alpha > 1e-8; violated on the last segment and for smaller alpha."
  },
  {
   "property": "C87",
   "status": "partial",
   "theorems": [
    "PV.Dyes.absorption_normalised_partial",
    "PV.Dyes.lumogen_emission",
    "PV.Dyes.fluro_emission",
    "PV.Dyes.named_ready",
    "PV.Dyes.absorption_depends",
    "PV.Dyes.emission_below_one",
    "PV.Dyes.emission_above_one"
   ],
   "note": "Absorption spectra are positive with peak 1 and all spectra positive; violated: independence of the other wavelengths, normalisation of the emission spectra."
  },
  {
   "property": "C88",
   "status": "partial",
   "theorems": [
    "PV.Component.scatterer_made",
    "PV.Component.absorber_made",
    "PV.Component.luminophore_made_partial",
    "PV.Component.coefficient_at",
    "PV.Component.default_emission_fails",
    "PV.Component.integer_unusable",
    "PV.Component.negative_accepted",
    "PV.Component.yield_unchecked"
   ],
   "note": "Proved for what the constructors check; violated for default emission, integers, negative constants and unchecked yields."
  },
  {
   "property": "C89",
   "status": "partial",
   "theorems": [
    "PV.Lsc.as_configured_partial",
    "PV.Lsc.builds_iff",
    "PV.Lsc.cells_asked",
    "PV.Lsc.mirror_asked",
    "PV.Lsc.sheet_clear",
    "PV.Lsc.default_light",
    "PV.Lsc.default_contents",
    "PV.Lsc.late_ignored",
    "PV.Lsc.scatterer_fails",
    "PV.Lsc.range_breaks",
    "PV.Lsc.failure_sticks"
   ],
   "note": "Proved for calls before the first simulation; violated for lights and components added later, scatterers, given wavelength ranges and after a failed simulation."
  },
  {
   "property": "C90",
   "status": "proved",
   "theorems": [
    "PV.PathLaw.reflected_law",
    "PV.PathLaw.left_law",
    "PV.PathLaw.absorbed_law",
    "PV.PathLaw.ends_law",
    "PV.PathLaw.lost_law",
    "PV.Slab.transmitted_fraction",
    "PV.Slab.reflected_fraction",
    "PV.Slab.absorbed_fraction",
    "PV.Slab.balance"
   ],
   "note": "Python tracer; real arithmetic and exactly uniform, independent numbers."
  },
  {
   "property": "C91",
   "status": "proved",
   "theorems": [
    "PV.Live.live_numbers",
    "PV.Live.live_paths",
    "PV.Live.described",
    "PV.Live.mean_zero_shown"
   ],
   "note": "means are compared where something was counted; otherwise the page is sent 0 (mean_zero_shown)"
  },
  {
   "property": "C92",
   "status": "partial",
   "theorems": [
    "PV.Plot.picture_matches_inspector",
    "PV.Plot.inspector_truth",
    "PV.Plot.overlay_exact_partial",
    "PV.Plot.overlay_stretched",
    "PV.Plot.overlay_not_positions",
    "PV.Plot.overlay_plain",
    "PV.Plot.bars_proportional",
    "PV.Plot.bar_within_one_partial",
    "PV.Plot.bar_misread",
    "PV.Plot.isotropic_arc_partial",
    "PV.Plot.polar_dent",
    "PV.Plot.colours_ordered",
    "PV.Plot.globalMax_bound"
   ],
   "note": "overlays exact when the ranges are those of the face, bars exact up to one bin, arcs exact away from the normal; otherwise false (witnesses)"
  },
  {
   "property": "C93",
   "status": "partial",
   "theorems": [
    "PV.Database.start_fresh",
    "PV.Database.disk_is_prefix",
    "PV.Database.interrupted_tables",
    "PV.Database.interrupted_answers",
    "PV.Database.ok_complete_partial",
    "PV.Database.failed_run_keeps_queue",
    "PV.Database.every_step_counts",
    "PV.Database.ends_partial",
    "PV.Database.dead_writer_hangs",
    "PV.Database.dead_writer_reached",
    "PV.Database.ok_but_lost"
   ],
   "note": "prefix, lower bounds and replacement proved for every crash point and schedule; OK and the end proved unless the writing thread raises, then false: the command hangs (dead_writer_hangs) or prints OK with an event missing (ok_but_lost)"
  },
  {
   "property": "C94",
   "status": "proved",
   "theorems": [
    "PV.View.viewport_shows_scene",
    "PV.View.file_viewport",
    "PV.View.file_lights",
    "PV.View.compose_decompose",
    "PV.View.dropped_there",
    "PV.View.drop_accepted"
   ],
   "note": "exact arithmetic; meshes with many faces stand for the solids they approximate"
  },
  {
   "property": "C95",
   "status": "proved",
   "theorems": [
    "PV.Waveguide.leaves_in_cone",
    "PV.Waveguide.emitted_in_frame",
    "PV.Waveguide.escape_share",
    "PV.Waveguide.trapped_share"
   ],
   "note": "Python tracer; assumes that the indices of any two materials differ by a factor of at most 10000 (above, the critical-angle test of the code differs from total reflection) and that trimesh reports points on the box. Arithmetic over the reals."
  },
  {
   "property": "C96",
   "status": "partial",
   "theorems": [
    "PV.Inside.travels_in_container_partial",
    "PV.Inside.event_in_container_partial",
    "PV.Inside.engine_travels_in_container_partial",
    "PV.Inside.grazing_absorbed_outside"
   ],
   "note": "For rays in general position (lines that go through every object they meet, the conditions under which the shapes report all crossings, not within EPS_ZERO of leaving the world); the first EPS_ZERO of each way are left out. grazing_absorbed_outside proves that rays touching a sphere violate the property. Engine via C09."
  },
  {
   "property": "C97",
   "status": "partial",
   "theorems": [
    "PV.Studio.other_files_untouched",
    "PV.Studio.document_saved_partial",
    "PV.Studio.opened",
    "PV.Studio.upload_stored",
    "PV.Studio.killed_partial",
    "PV.Studio.saved_loads_partial",
    "PV.Studio.stays_current_partial",
    "PV.Studio.upload_stale",
    "PV.Studio.killed_save_loses",
    "PV.Studio.upload_not_found",
    "PV.Studio.saved_does_not_load",
    "PV.Studio.upload_overwrites_document"
   ],
   "note": "document_saved_partial: if the document is not itself a .csv or .txt file. saved_loads_partial: if the studio runs in the directory of the document or the files are named by absolute paths, and nothing was uploaded since the last accepted edit. stays_current_partial: the scene in the studio follows the files, through any uploads but of files the document names; upload_stale: for those it does not. The other four prove that the property fails otherwise, and that an interrupted save can lose the document. Paths are strings in normal form; writes succeed."
  },
  {
   "property": "C98",
   "status": "proved",
   "theorems": [
    "PV.Estimates.expected_count",
    "PV.Estimates.estimate_converges",
    "PV.Estimates.estimate_error",
    "PV.Estimates.recorder_estimates",
    "PV.Estimates.histogram_estimates",
    "PV.Estimates.recorder_error",
    "PV.Estimates.simulated_transmittance",
    "PV.Estimates.simulated_error"
   ],
   "note": "For ideal random numbers, one independent sequence per ray (the engine gives each ray its own stream; the Python tracer cuts consecutive pieces from one stream). The recorders' numbers are those of tally_histories, equal to the engine's by C11."
  },
  {
   "property": "C99",
   "status": "partial",
   "theorems": [
    "PV.Custom.only_turned",
    "PV.Custom.reflects_as_often",
    "PV.Custom.wrong_answers",
    "PV.Custom.on_surface_partial",
    "PV.Custom.builtin_same",
    "PV.Custom.builtin_keeps",
    "PV.Custom.cell_keeps",
    "PV.Custom.gap_keeps",
    "PV.Custom.bare_facet",
    "PV.Custom.gap_sends_back",
    "PV.Custom.long_direction_overshoots"
   ],
   "note": "The last clause holds for delegates whose answers are unit vectors in the local frame (the library's own are, proved). The code does not check or normalise the length: long_direction_overshoots shows a ray leaving the world 9 cm outside of it. Non-unit answers are therefore excluded by the hypothesis Keeps of on_surface_partial."
  },
  {
   "property": "C100",
   "status": "partial",
   "theorems": [
    "PV.Meshcat.shows_scene_partial",
    "PV.Meshcat.unknown_refused",
    "PV.Meshcat.twins_hidden",
    "PV.Meshcat.slash_displaced",
    "PV.Meshcat.root_not_shown"
   ],
   "note": "Proved for graphs whose siblings have distinct names without '/' and '|', and for all nodes but the root. The code violates the rest: equal sibling names overwrite each other, a '/' in a name moves the object, and show_root is ignored (witnesses proved)."
  },
  {
   "property": "C101",
   "status": "proved",
   "theorems": [
    "PV.Stream.follow_same",
    "PV.Stream.follow_reads",
    "PV.Stream.library_reads",
    "PV.Stream.launch_reads",
    "PV.Stream.stage_reads",
    "PV.Stream.rays_independent",
    "PV.Stream.share_error",
    "PV.Stream.share_converges",
    "PV.Stream.one_light"
   ],
   "note": "That every ray of every library scene takes finitely many numbers in order and leaves the generator behind them is proved without hypotheses (custom light delegates must do so too). Independence and the estimates are about fates that have a chance: that the fate, and the number of numbers a ray takes, are measurable is a hypothesis (Decided) that C102 discharges for library scenes, and the estimates ask that a ray fails with probability zero only."
  },
  {
   "property": "C102",
   "status": "proved",
   "theorems": [
    "PV.Measured.ray_decided",
    "PV.Measured.follow_decided",
    "PV.Measured.counted",
    "PV.Measured.ray_counted",
    "PV.Measured.library_independent",
    "PV.Measured.library_estimate",
    "PV.Measured.library_share_error",
    "PV.Measured.library_one_light",
    "PV.Measured.mesh_tame",
    "PV.Measured.borel_box",
    "PV.Measured.borel_events",
    "PV.Measured.borel_last",
    "PV.Measured.borel_some"
   ],
   "note": "Removes the measurability hypotheses of C98 and C101 for library scenes. The mesh of a box is a parameter whose answers must be Borel in the ray (the slab method is); the user's own light delegates must be Borel programs that read the stream in order. The error bound and the limit for one stream ask that a ray fails with probability zero only."
  },
  {
   "property": "C103",
   "status": "partial",
   "theorems": [
    "PV.Ending.every_ray_ends_partial",
    "PV.Ending.body_fine",
    "PV.Ending.tables_suit",
    "PV.Ending.engine_ray_ends_partial",
    "PV.Ending.default_emission_raises",
    "PV.Ending.default_run_raises"
   ],
   "note": "Proved for rays in general position that do not hit a box at an edge, and for spectra that suit the emit method; with the default method kT the code raises for absorbed wavelengths near the short end of the emission spectrum (default_run_raises)."
  },
  {
   "property": "C104",
   "status": "partial",
   "theorems": [
    "PV.Moved.moved_history",
    "PV.Moved.turned_history",
    "PV.Moved.group_moves",
    "PV.Moved.group_order",
    "PV.Moved.engine_shifted_partial",
    "PV.Moved.engine_emission_not_turned",
    "PV.Moved.engine_not_turned"
   ],
   "note": "Proved in full for the Python tracer (moved_history, every scene and motion) and for the scene graph; for the engine only for shifts, because turning the apparatus does not turn the engine's re-emission (engine_not_turned)."
  },
  {
   "property": "C105",
   "status": "partial",
   "theorems": [
    "PV.Variants.order_irrelevant",
    "PV.Variants.order_irrelevant_partial",
    "PV.Variants.order_irrelevant_engine_partial",
    "PV.Variants.order_irrelevant_kernel",
    "PV.Variants.order_irrelevant_kernel_partial",
    "PV.Variants.order_decides"
   ],
   "note": "Proved for both tracers: for scenes whose surfaces have no common point, for every ray (order_irrelevant; order_irrelevant_kernel asks in addition that no direction is nearly parallel to a face of the solids), and in any scene for rays that never have two objects at exactly the same distance ahead. Where objects touch the order decides (order_decides)."
  },
  {
   "property": "C106",
   "status": "partial",
   "theorems": [
    "PV.Variants.bystander_irrelevant_partial",
    "PV.Variants.bystander_irrelevant_engine_partial",
    "PV.Variants.bystander_out_of_way_partial",
    "PV.Variants.bystander_irrelevant_kernel_partial",
    "PV.Variants.bystander_decides"
   ],
   "note": "Proved for both tracers for further objects that at every pass are not ahead of the ray, or lie behind two crossings of other objects, or behind the surface of an object the ray is about to enter. As stated it is violated: an object beyond the surface the ray comes to decides whether the ray is reflected there (bystander_decides)."
  },
  {
   "property": "C107",
   "status": "partial",
   "theorems": [
    "PV.Variants.world_irrelevant_partial",
    "PV.Variants.world_irrelevant_engine_partial"
   ],
   "note": "Proved for nested and separate objects and rays in general position in both worlds; rays that graze an object or start within EPS_ZERO of the world's surface are left out."
  },
  {
   "property": "C108",
   "status": "partial",
   "theorems": [
    "PV.Scaled.unit_irrelevant_partial",
    "PV.Scaled.unit_irrelevant_python_partial",
    "PV.Scaled.unit_decides"
   ],
   "note": "Proved for whole histories and recorder calls of the engine, every scene with solids of positive size, every k > 0, where the three absolute tolerances decide alike at the rays the trace comes to (`Steady`); for the Python tracer also general position in both units (`Regular`). Without that it is false: `unit_decides` proves that in a small enough unit nothing is absorbed."
  },
  {
   "property": "C109",
   "status": "partial",
   "theorems": [
    "PV.Reverse.follows_chance",
    "PV.Reverse.reciprocity",
    "PV.Reverse.path_back",
    "PV.Reverse.way_out_free"
   ],
   "note": "Engine kernel, scenes of objects one in another (with objects side by side the neighbour may be wrong, C106). Paths in general position, off edges. `way_out_free`: the property fails for paths that end on a way out of an absorbing world, because light that leaves the scene is not absorbed."
  },
  {
   "property": "C110",
   "status": "partial",
   "theorems": [
    "PV.Spectrum.bandgap_step",
    "PV.Spectrum.convert_energies",
    "PV.Spectrum.convert_twice",
    "PV.Spectrum.emission_spec",
    "PV.Spectrum.emission_scale",
    "PV.Spectrum.emissivity_falls",
    "PV.Spectrum.emission_redder",
    "PV.Spectrum.emission_negative",
    "PV.Spectrum.emission_integers"
   ],
   "note": "Proved for arrays of floats whose photon energies lie above mu. The code violates the property for photon energies below mu (negative emission, emission_negative) and for arrays of integers (energies truncated, emission_integers)."
  },
  {
   "property": "C111",
   "status": "partial",
   "theorems": [
    "PV.Rotations.euler_turns",
    "PV.Rotations.euler_rotation",
    "PV.Rotations.quaternion_turns",
    "PV.Rotations.quaternion_rotation",
    "PV.Rotations.multiply_eq",
    "PV.Rotations.inverse_eq",
    "PV.Rotations.matrix_multiply",
    "PV.Rotations.about_axis",
    "PV.Rotations.quaternion_euler",
    "PV.Rotations.euler_back_partial",
    "PV.Rotations.quaternion_back",
    "PV.Rotations.eigenvector_exists",
    "PV.Rotations.precise_back_partial",
    "PV.Rotations.precise_half_turn",
    "PV.Rotations.precise_raises",
    "PV.Rotations.half_turns",
    "PV.Rotations.random_unit",
    "PV.Rotations.slerp_even",
    "PV.Rotations.slerp_spin_long",
    "PV.Rotations.decompose_back_partial",
    "PV.Rotations.decompose_gimbal"
   ],
   "note": "Over the reals. euler_back_partial leaves out second turns within 8.9e-16 of gimbal lock, but not in it. quaternion_back takes from numpy.linalg.eigh only that it returns a unit eigenvector of the largest eigenvalue. The code violates the property for isprecise=True and half turns (precise_half_turn, precise_raises), for odd spins (slerp_spin_long) and for matrices whose first column is parallel to the z axis (decompose_gimbal)."
  },
  {
   "property": "C112",
   "status": "proved",
   "theorems": [
    "PV.Reemission.reemitted",
    "PV.Reemission.given_off",
    "PV.Reemission.mean_reemitted",
    "PV.Reemission.share_le",
    "PV.Reemission.share_ge",
    "PV.Reemission.share_eq",
    "PV.Reemission.mean_share_le",
    "PV.Reemission.mean_share",
    "PV.Reemission.glow_safe",
    "PV.Reemission.inner_quarter"
   ],
   "note": "Python tracer with independent numbers uniform on [0, 1); meshes through measurable trimesh answers (BorelMesh). The exact laws assume that following the ray raises an exception with probability 0 only; glow_safe shows this of a glowing ball for every limit on the number of steps."
  },
  {
   "property": "C113",
   "status": "proved",
   "theorems": [
    "PV.EngineChance.engine_decided",
    "PV.EngineChance.engine_independent",
    "PV.EngineChance.recorder_error",
    "PV.EngineChance.recorder_converges",
    "PV.EngineChance.bin_error",
    "PV.EngineChance.recorder_estimates",
    "PV.EngineChance.totals_add",
    "PV.EngineChance.lost_chance"
   ],
   "note": "Engine with one independent sequence of numbers uniform on [0, 1) for each ray; the generator that produces the numbers from the seeds is modelled bit by bit in C20 and C21; its numbers are not proved to be random. No assumption on the scene: the engine's functions are total in the model."
  },
  {
   "property": "C114",
   "status": "proved",
   "theorems": [
    "PV.EngineReemission.once_more",
    "PV.EngineReemission.engine_reemitted",
    "PV.EngineReemission.engine_given_off",
    "PV.EngineReemission.engine_share_le",
    "PV.EngineReemission.engine_share_ge",
    "PV.EngineReemission.engine_share_eq",
    "PV.EngineReemission.engine_mean_reemitted",
    "PV.EngineReemission.engine_mean_le",
    "PV.EngineReemission.engine_mean",
    "PV.EngineReemission.engine_balance",
    "PV.EngineReemission.engine_lost"
   ],
   "note": "Engine with one independent sequence of numbers uniform on [0, 1) for each ray, with every event recorded (the full history of C12 and C19, with enough room in the log). No assumption on the scene."
  },
  {
   "property": "C115",
   "status": "proved",
   "theorems": [
    "PV.SameLaw.same_chance",
    "PV.SameLaw.same_law",
    "PV.Sphere.isotropic_turned",
    "PV.Turned.upright_indifferent",
    "PV.Turned.law",
    "PV.SameLaw.tilt_irregular"
   ],
   "note": "Over Layer B (real numbers). Histories within the engine's event budget. The bound is the chance of the states excluded by PV.Library.Regular; in the demonstration it is at most 2e-9."
  },
  {
   "property": "C116",
   "status": "partial",
   "theorems": [
    "PV.Database.beside_the_scene",
    "PV.Database.beside_however_spelled",
    "PV.Database.results_absolute",
    "PV.Database.same_database",
    "PV.Database.own_file",
    "PV.Database.only_its_database",
    "PV.Database.scene_survives_partial",
    "PV.Database.kept_without_consent",
    "PV.Database.commence_empty",
    "PV.Database.own_rows",
    "PV.Database.two_scenes_one_database",
    "PV.Database.scene_deleted",
    "PV.Database.old_results_lost"
   ],
   "note": "Holds for every path and crash point except that the code violates it in three ways, each proved with a witness: plate.yml and plate.yaml share one database; a scene file called x.sqlite3 is its own database and is deleted after consent; the old results are removed before the new run has produced any, also if it then fails."
  },
  {
   "property": "C117",
   "status": "partial",
   "theorems": [
    "PV.Matrices.mirror",
    "PV.Matrices.mirror_unique",
    "PV.Matrices.mirror_twice",
    "PV.Matrices.mirror_distance",
    "PV.Matrices.scale_uniform",
    "PV.Matrices.scale_about_zero",
    "PV.Matrices.scale_along",
    "PV.Matrices.project_orthogonal",
    "PV.Matrices.project_parallel",
    "PV.Matrices.project_perspective",
    "PV.Matrices.project_fixed",
    "PV.Matrices.pseudo_then_orthogonal",
    "PV.Matrices.pseudo_height",
    "PV.Matrices.depth_kept_partial",
    "PV.Matrices.depth_reversed",
    "PV.Matrices.clip_refused",
    "PV.Matrices.clip_box",
    "PV.Matrices.clip_pyramid",
    "PV.Matrices.shear_refused",
    "PV.Matrices.shear_extent",
    "PV.Matrices.shear_fixed",
    "PV.Matrices.shear_volume_kept_partial",
    "PV.Matrices.shear_volume_changed",
    "PV.Matrices.cell",
    "PV.Matrices.angle_directed",
    "PV.Matrices.angle_undirected",
    "PV.Matrices.concatenate",
    "PV.Matrices.same_multiple",
    "PV.Matrices.same_not_symmetric",
    "PV.Matrices.reflection_back",
    "PV.Matrices.scale_back",
    "PV.Matrices.scale_back_uniform",
    "PV.Matrices.projection_back",
    "PV.Matrices.perspective_back",
    "PV.Matrices.perspective_lost",
    "PV.Matrices.perspective_refused",
    "PV.Matrices.pseudo_mistaken",
    "PV.Matrices.shear_back",
    "PV.Matrices.shear_lost",
    "PV.Matrices.translation_moves",
    "PV.Matrices.translation_back"
   ],
   "note": "Real numbers. Building matrices is proved for every argument. Violations proved with witnesses: pseudo reverses depth when the normal points to the perspective point; projection_from_matrix fails for planes through the origin and for the perspective point at distance one, and may return another perspective point with pseudo; shear_from_matrix fails for the angle zero; is_same_transform is not symmetric. The eigenvectors found by numpy.linalg.eig are taken as given, with exact eigenvalues."
  },
  {
   "property": "C118",
   "status": "proved",
   "theorems": [
    "PV.RecorderLaw.run_sided",
    "PV.RecorderLaw.seen_history",
    "PV.RecorderLaw.same_report",
    "PV.RecorderLaw.reports_converge"
   ],
   "note": "Hypothesis: the run is regular for almost all draws (as in C115); shown for every slab in C119."
  },
  {
   "property": "C119",
   "status": "proved",
   "theorems": [
    "PV.EngineSlab.regular_runs",
    "PV.EngineSlab.engine_law",
    "PV.EngineSlab.engine_transmitted",
    "PV.EngineSlab.engine_reflected",
    "PV.EngineSlab.engine_absorbed",
    "PV.EngineSlab.reported_transmittance",
    "PV.EngineSlab.reported_absorptance"
   ],
   "note": "All hypotheses of C115 and C118 are shown to hold for every slab; two recorders on a tinted slab are worked out as an example."
  },
  {
   "property": "C120",
   "status": "proved",
   "theorems": [
    "PV.StudioAdd.node_added",
    "PV.StudioAdd.component_added",
    "PV.StudioAdd.recorder_added"
   ],
   "note": "reading the file only: compiling the scene for the engine afterwards is not part of it; the button for face recorders is not covered here (see PV.Studio.face_recorders)"
  },
  {
   "property": "C121",
   "status": "proved",
   "theorems": [
    "PV.EngineGuide.directions_unit",
    "PV.EngineGuide.leaves_in_cone",
    "PV.EngineGuide.guided",
    "PV.EngineGuide.emitted_drawn",
    "PV.EngineGuide.escape_share",
    "PV.EngineGuide.trapped_share"
   ],
   "note": "Real arithmetic: rounding in the kernel is not modelled."
  },
  {
   "property": "C122",
   "status": "partial",
   "theorems": [
    "PV.StudioDelete.node_removed_partial",
    "PV.StudioDelete.parent_removed",
    "PV.StudioDelete.world_removed",
    "PV.StudioDelete.recorder_removed_partial",
    "PV.StudioDelete.component_removed",
    "PV.StudioDelete.hidden_appears"
   ],
   "note": "The code violates the property where a declared recorder hides an automatic recorder of the same name (hidden_appears); everything else is proved."
  },
  {
   "property": "C123",
   "status": "partial",
   "theorems": [
    "PV.LightOrder.file_lights",
    "PV.LightOrder.file_rays",
    "PV.LightOrder.file_shines",
    "PV.LightOrder.components_perm",
    "PV.LightOrder.cone_never_shines",
    "PV.LightOrder.zero_never_shines",
    "PV.LightOrder.dark_never_shines"
   ],
   "note": "Partial only because the code violates the last sentence: files without a light, with a cone of half angle 0 or above 90 degrees, or with wavelength 0 load and cannot emit (cone_never_shines, zero_never_shines, dark_never_shines). file_shines says which files can."
  },
  {
   "property": "C124",
   "status": "proved",
   "theorems": [
    "PV.StudioList.recorders_listed",
    "PV.StudioList.delete_button"
   ],
   "note": "Over the model of parse, scene_payload and apply_patch; dictionaries have distinct keys, as parsed YAML has."
  },
  {
   "property": "C125",
   "status": "proved",
   "theorems": [
    "PV.Parts.python_split",
    "PV.Parts.engine_split"
   ],
   "note": "Event for event with the same random numbers; over the reals, where sums of coefficients do not round. Engine: scenes it accepts."
  },
  {
   "property": "C126",
   "status": "proved",
   "theorems": [
    "PV.ComponentOrder.engine_order",
    "PV.ComponentOrder.recorders_order",
    "PV.ComponentOrder.recorder_order",
    "PV.ComponentOrder.python_order",
    "PV.ComponentOrder.simulation_order"
   ],
   "note": "Chances are measures of sets of number sequences (Spec/Chance). Engine recorders are treated for rays that are not logged (the event budget of a logged ray is not used up in engine_order). swapped_differs shows a scene where the single runs do differ."
  },
  {
   "property": "C127",
   "status": "proved",
   "theorems": [
    "PV.LightMix.lights_average",
    "PV.LightMix.lights_error",
    "PV.LightMix.lights_order",
    "PV.LightMix.lights_groups",
    "PV.LightMix.engine_average"
   ],
   "note": "Assumes that rays do not fail (C103) and numbers independent and uniform. The engine version is for beams given to the bundle in turn; how emit_bundle draws them is C65."
  },
  {
   "property": "C128",
   "status": "proved",
   "theorems": [
    "PV.Resume.resumed",
    "PV.Resume.scene_resumed",
    "PV.Resume.started_history",
    "PV.Resume.resumed_afresh"
   ],
   "note": "resumed holds for the tracer over any scene; scene_resumed and resumed_afresh for the library's scenes with the numbers taken from an arbitrary sequence; a distance limit is compared with the ray's own count, so it is moved along in started_history."
  },
  {
   "property": "C129",
   "status": "proved",
   "theorems": [
    "PV.Limits.limits_raised",
    "PV.Limits.alive_same",
    "PV.Limits.killed_lower",
    "PV.Limits.count_raised",
    "PV.Limits.chance_raised",
    "PV.Limits.killed_rarer",
    "PV.Limits.recorders_raised",
    "PV.Limits.killed_bound",
    "PV.Limits.none_killed"
   ],
   "note": "The engine's event budget max_events is kept the same in both runs; it does not depend on maxsteps in the code."
  },
  {
   "property": "C130",
   "status": "proved",
   "theorems": [
    "PV.Passive.log_passive",
    "PV.Passive.recorder_passive"
   ],
   "note": "Both runs have the same max_events and record_every (C12 says what these change)."
  },
  {
   "property": "C131",
   "status": "proved",
   "theorems": [
    "PV.EventCounts.counts_shown",
    "PV.EventCounts.counts_balance",
    "PV.EventCounts.final_missing"
   ],
   "note": "event_counts() lists exactly the events of histories() with their numbers, for every schedule; the counts balance for every budget of at least one event. final_missing: with a budget of three events no final event is logged, so the last part needs its hypothesis."
  },
  {
   "property": "C132",
   "status": "proved",
   "theorems": [
    "PV.MeshShape.intersections_sorted",
    "PV.MeshShape.first_nearest",
    "PV.MeshShape.hit_normal",
    "PV.MeshShape.entering_right",
    "PV.MeshShape.inside_leaves",
    "PV.MeshShape.passing",
    "PV.MeshShape.centred",
    "PV.MeshShape.centred_again",
    "PV.MeshShape.position_lost",
    "PV.MeshShape.caller_changed"
   ],
   "note": "For every mesh and every library with correct queries (Spec.Trusted; reference_trusted shows that every proper mesh has one). position_lost and caller_changed record what centring does to the file's coordinates and to the caller's object."
  },
  {
   "property": "C133",
   "status": "proved",
   "theorems": [
    "PV.Markov.first_step",
    "PV.Markov.first_step_end",
    "PV.Markov.certificate",
    "PV.Markov.solution",
    "PV.Markov.least_solution",
    "PV.Markov.engine_first_step",
    "PV.Markov.engine_certificate"
   ],
   "note": "first_step: any Borel condition on histories; first_step_end: how the ray ends up, without the history so far; certificate: a function that does not increase on average bounds the chance of an ending, for every step limit; solution and least_solution: without a step limit the chances of the endings are the least solution of the first-step equation. Random numbers are independent and uniform; a pass is one turn of the tracer's loop (Model/Stream, shown equal to Model/Tracer by pass_same). engine_first_step and engine_certificate carry this over to the engine where the tracer does not meet a state in which the two codes disagree, as in C115 (the bounds: up to the chance of such a state)."
  },
  {
   "property": "C134",
   "status": "partial",
   "theorems": [
    "PV.StudioRun.run_story",
    "PV.StudioRun.done_means_all",
    "PV.StudioRun.stop_stops",
    "PV.StudioRun.run_ends",
    "PV.StudioRun.shown_matches_partial",
    "PV.StudioRun.stop_lost",
    "PV.StudioRun.old_shown",
    "PV.StudioRun.old_stays",
    "PV.StudioRun.wrong_labels",
    "PV.StudioRun.no_word"
   ],
   "note": "Everything but the last sentence is proved for every interleaving. The last sentence is proved for users who wait for a run to end before editing or starting again (shown_matches_partial); otherwise the code violates it: starting a run while one is going on cancels the stop it sends first (stop_lost, for every state), so the old run goes on and its counts are shown with the labels of the new one (old_shown) and may stay (old_stays); an edit between announcement and first bundle mislabels a run (wrong_labels) or ends it silently (no_word)."
  },
  {
   "property": "C135",
   "status": "partial",
   "theorems": [
    "PV.RecorderNodes.engine_lists",
    "PV.RecorderNodes.engine_node",
    "PV.RecorderNodes.same_lists_partial",
    "PV.RecorderNodes.left_out",
    "PV.RecorderNodes.lamp_left_out"
   ],
   "note": "Proved for the recorders of nodes with a geometry. For nodes without one (lights) the code violates it: left_out for every such scene, lamp_left_out a witness. What each entry counts is C16, C17 and their like."
  },
  {
   "property": "C136",
   "status": "partial",
   "theorems": [
    "PV.DistFloat.finite_accepted",
    "PV.DistFloat.finite_cdf_partial",
    "PV.DistFloat.nan_accepted",
    "PV.DistFloat.nan_spoils",
    "PV.DistFloat.inf_spoils",
    "PV.DistFloat.zeros_spoil"
   ],
   "note": "Proved for tables of finite numbers with a positive value. The code violates the rest: it refuses a table only if none of its values is finite. nan_accepted: every accepted table stays accepted when a value is lost; nan_spoils, inf_spoils: for every such table the cumulative distribution is no number; zeros_spoil: a table of zeros. Finite values are exact; the sign of zero is not modelled."
  },
  {
   "property": "C137",
   "status": "proved",
   "theorems": [
    "PV.Live.page_draws",
    "PV.Live.all_drawn",
    "PV.Live.first_rays_drawn",
    "PV.Live.rays_drawn"
   ],
   "note": "rays_drawn: a recorded ray that meets something when it starts has two events or more if the log has room for two. The messages are those of live (Model/StudioLive), the lines those of Canvas.show (Model/StudioPaths). Points and wavelengths are within half a unit of the last sent digit of the history (PathOf, Spec/Live). Rounding to 32 bits and colours are not modelled. Messages of a single run: for runs that overlap see C134."
  },
  {
   "property": "C138",
   "status": "proved",
   "theorems": [
    "PV.Plot.colour_bright",
    "PV.Plot.colour_tells",
    "PV.Plot.colour_ends",
    "PV.Plot.colour_close",
    "PV.Plot.renderer_same"
   ],
   "note": "Over the reals; nan is not represented."
  },
  {
   "property": "C139",
   "status": "partial",
   "theorems": [
    "PV.Studio.commit_light",
    "PV.Studio.field_sets_partial",
    "PV.Studio.field_shows_partial",
    "PV.Studio.field_idle",
    "PV.Studio.cleared_raises"
   ],
   "note": "Holds for lights without a wavelength in their mask and numbers other than 0. Refuted for the rest: with a wavelength in the mask the field has no effect (field_idle), and an emptied field commits 0, which makes a light that raises on its first ray (cleared_raises). The rounding of the field to six places is not modelled."
  },
  {
   "property": "C140",
   "status": "proved",
   "theorems": [
    "PV.Studio.cone_shows",
    "PV.Studio.cone_sets"
   ],
   "note": "The rounding of the field to six places is not modelled. The half-angle is in degrees on the page, in the document and in the reader's result; its conversion to radians belongs to the light."
  }
 ]
}