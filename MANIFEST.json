{
 "claims": [
  {
   "property": "C01",
   "status": "proved",
   "theorems": [
    "Jinete.C01_distance_cache_transparent"
   ],
   "note": "Any history of distance/time queries on any surface state built by queries."
  },
  {
   "property": "C02",
   "status": "proved",
   "theorems": [
    "Jinete.C02_metrics"
   ],
   "note": "Manhattan over rationals, Euclidean over reals. Common dimension is needed: Jinete.C02_truncation_witness."
  },
  {
   "property": "C03",
   "status": "proved",
   "theorems": [
    "Jinete.C03_positions"
   ],
   "note": "Any sequence of get_or_create_position calls."
  },
  {
   "property": "C04",
   "status": "proved",
   "theorems": [
    "Jinete.C04_windows_tighten"
   ],
   "note": ""
  },
  {
   "property": "C05",
   "status": "partial",
   "theorems": [
    "Jinete.C05_lossless_iff",
    "Jinete.C05_not_lossless",
    "Jinete.C05_not_lossless_earliest",
    "Jinete.C05_lossless_partial"
   ],
   "note": "The full claim TighteningLossless is false of the code (two witnesses). C05_lossless_iff is the exact criterion for trips that can be served at all: nothing is lost iff neither LosesLate nor LosesEarly. C05_lossless_partial: a sufficient inequality on loading times."
  },
  {
   "property": "C06",
   "status": "proved",
   "theorems": [
    "Jinete.C06_times_follow_schedule"
   ],
   "note": "Any list of queries to any stops of a linked route whose memoised values agree with the schedule."
  },
  {
   "property": "C07",
   "status": "proved",
   "theorems": [
    "Jinete.C07_time_never_backwards"
   ],
   "note": ""
  },
  {
   "property": "C08",
   "status": "proved",
   "theorems": [
    "Jinete.C08_load_is_on_board"
   ],
   "note": ""
  },
  {
   "property": "C09",
   "status": "partial",
   "theorems": [
    "Jinete.C09_not_propagated",
    "Jinete.C09_setter_partial"
   ],
   "note": "The full claim SetterPropagates is false (later stops keep cached times); own start and the state after flushing later stops proved."
  },
  {
   "property": "C10",
   "status": "proved",
   "theorems": [
    "Jinete.C10_insert_stop_splices",
    "Jinete.C10_previous_not_in_route"
   ],
   "note": "Inserting after the last stop raises IndexError (C10_after_last_raises)."
  },
  {
   "property": "C11",
   "status": "partial",
   "theorems": [
    "Jinete.C11_returns_other_stop",
    "Jinete.C11_returns_last_partial"
   ],
   "note": "The full claim InsertReturnsInserted is false: insert_stop returns the last stop of the route."
  },
  {
   "property": "C12",
   "status": "proved",
   "theorems": [
    "Jinete.C12_append_planned_trip"
   ],
   "note": ""
  },
  {
   "property": "C13",
   "status": "proved",
   "theorems": [
    "Jinete.C13_remove_undoes_append"
   ],
   "note": ""
  },
  {
   "property": "C14",
   "status": "partial",
   "theorems": [
    "Jinete.C14_not_linked_at_zero",
    "Jinete.C14_last_raises",
    "Jinete.C14_remove_stop_at_partial"
   ],
   "note": "The full claim RemoveKeepsLinked is false at index 0 and at the last index; proved for the others."
  },
  {
   "property": "C15",
   "status": "proved",
   "theorems": [
    "Jinete.C15_clone_same_itinerary"
   ],
   "note": "Every well formed route and every threshold."
  },
  {
   "property": "C16",
   "status": "proved",
   "theorems": [
    "Jinete.C16_clone_frame"
   ],
   "note": ""
  },
  {
   "property": "C17",
   "status": "partial",
   "theorems": [
    "Jinete.C17_clone_not_independent",
    "Jinete.C17_clone_independent_partial"
   ],
   "note": "The full claim CloneIndependent is false when a prefix is shared; proved for thresholds up to 2 (default 0) against any sequence of modifications of the original."
  },
  {
   "property": "C18",
   "status": "proved",
   "theorems": [
    "Jinete.C18_feasible_iff_constraints"
   ],
   "note": ""
  },
  {
   "property": "C19",
   "status": "partial",
   "theorems": [
    "Jinete.C19_flush_stale",
    "Jinete.C19_flush_fresh_partial"
   ],
   "note": "The full claim FlushMakesFresh is false: Stop.flush keeps the memoised Stop.feasible. Proved when the memoised stop verdicts are right; vehicle-level and ride-time constraints always."
  },
  {
   "property": "C20",
   "status": "partial",
   "theorems": [
    "Jinete.C20_leaves_late",
    "Jinete.C20_leaves_in_window_partial"
   ],
   "note": "The full claim LeavesInWindow is false: origin_latest is never read. Proved when the destination closes no later than the origin, in particular without separate destination."
  },
  {
   "property": "C21",
   "status": "proved",
   "theorems": [
    "Jinete.C21_candidates"
   ],
   "note": "Any list of trips, with and without only_feasible; also: new route objects, same vehicle, given route keeps its duties."
  },
  {
   "property": "C22",
   "status": "proved",
   "theorems": [
    "Jinete.C22_intensive_enumerates",
    "Jinete.C22_tail_appends",
    "Jinete.C22_sampling_considers"
   ],
   "note": "Placements are triples of duty lists. Sampling: whenever the sampling loop ends, for every random stream."
  },
  {
   "property": "C23",
   "status": "partial",
   "theorems": [
    "Jinete.C23_returned_infeasible",
    "Jinete.C23_returned_partial"
   ],
   "note": "The full claim ReturnedFeasible is false (stale Stop.feasible after shifting). Proved in reachable states: everything but closing times, which hold for the schedule that serves the same visits as soon as possible (all constraints if no trip has a maximum ride time); the route duration for single trips."
  },
  {
   "property": "C24",
   "status": "partial",
   "theorems": [
    "Jinete.C24_schedule_changed",
    "Jinete.C24_schedule_kept_partial"
   ],
   "note": "The full claim ComputeKeepsSchedule is false (shared depot stop). Proved: all but the depot departure; everything if nobody waits at the second stop or i <= 1."
  },
  {
   "property": "C25",
   "status": "proved",
   "theorems": [
    "Jinete.C25_sample_index_pairs",
    "Jinete.C25_returns_iff",
    "Jinete.C25_every_sample"
   ],
   "note": "For every random stream; C25_returns_iff says for which streams it returns within given rounds; C25_every_sample: each set of that many pairs, in each order, is the sample for some stream."
  },
  {
   "property": "C26",
   "status": "proved",
   "theorems": [
    "Jinete.C26_ncr"
   ],
   "note": ""
  },
  {
   "property": "C27",
   "status": "proved",
   "theorems": [
    "Jinete.C27_remove_duplicates"
   ],
   "note": ""
  },
  {
   "property": "C28",
   "status": "proved",
   "theorems": [
    "Jinete.C28_accounts"
   ],
   "note": "Any initial routes that do not share trips, any random choices and set orders. The sampling loop may run out of its fuel; the theorem says that this is the only failure."
  },
  {
   "property": "C29",
   "status": "proved",
   "theorems": [
    "Jinete.C29_terminates"
   ],
   "note": "Each pass takes one trip; fuel beyond one pass per trip and one more changes nothing."
  },
  {
   "property": "C30",
   "status": "proved",
   "theorems": [
    "Jinete.C30_greedy"
   ],
   "note": ""
  },
  {
   "property": "C31",
   "status": "partial",
   "theorems": [
    "Jinete.C31_draws_from_worse",
    "Jinete.C31_draws_partial"
   ],
   "note": "The full claim DrawsFromBest is false: with two vehicles only the first of each later sub-ranking displaces a worse candidate. Proved: fewer than n vehicles have a better candidate; the claim itself when all candidates belong to one vehicle."
  },
  {
   "property": "C32",
   "status": "partial",
   "theorems": [
    "Jinete.C32_trip_lost",
    "Jinete.C32_stateless_partial"
   ],
   "note": "The full claim StatelessAccounts is false: the cached attractive routes are stale, a second route for a vehicle replaces the first. Proved: no trip twice, one route per vehicle, each with at most one new trip; exactly the trips of the replaced route are lost."
  },
  {
   "property": "C33",
   "status": "partial",
   "theorems": [
    "Jinete.C33_claim_fails",
    "Jinete.C33_no_route",
    "Jinete.C33_outcome_partial"
   ],
   "note": "The full claim BestStatelessWorks is false: nbest is called with the candidates as positional arguments, so next never returns a route, for any settings and state. Proved: which exception is raised."
  },
  {
   "property": "C34",
   "status": "partial",
   "theorems": [
    "Jinete.C34_other_vehicle_fits",
    "Jinete.C34_stops_partial"
   ],
   "note": "The full claim StopsExhausted is false: only one empty vehicle is tried. Proved for the intensive strategy without neighbourhood cap: every placement in every serving route, and in at least one route, was tried and found infeasible."
  },
  {
   "property": "C35",
   "status": "proved",
   "theorems": [
    "Jinete.C35_best_first_maximum",
    "Jinete.C35_best_value_any_order"
   ],
   "note": "For plannings, routes, stops, planned trips and plain tuples mixed with None."
  },
  {
   "property": "C36",
   "status": "proved",
   "theorems": [
    "Jinete.C36_best_sorted_nbest_agree"
   ],
   "note": "All six criteria, any routes that can be scored."
  },
  {
   "property": "C37",
   "status": "proved",
   "theorems": [
    "Jinete.C37_best_is_feasible",
    "Jinete.C37_sorted_feasible_first"
   ],
   "note": "Routes whose memoised values agree with their duties."
  },
  {
   "property": "C38",
   "status": "proved",
   "theorems": [
    "Jinete.C38_planning_value",
    "Jinete.C38_dial_a_ride"
   ],
   "note": "Any iteration order of the set of routes."
  },
  {
   "property": "C39",
   "status": "proved",
   "theorems": [
    "Jinete.C39_local_search_not_worse",
    "Jinete.C39_local_search_ends"
   ],
   "note": "For an arbitrary strategy on an arbitrary state; termination when finitely many objective values are possible."
  },
  {
   "property": "C40",
   "status": "partial",
   "theorems": [
    "Jinete.C40_trip_lost",
    "Jinete.C40_reallocation_partial",
    "Jinete.C40_reallocation_reached"
   ],
   "note": "The full claim ReallocKeepsWork is false: moving a trip away from a stop it shares with another trip drops the other trip as well. Proved for routes with at most one trip per stop, which all states reached by the insertion strategies have: the pass never raises, leaves the originals alone, keeps vehicles and trips, and either nothing changed or exactly one trip moved and the objective strictly improved. The samples of index pairs are assumed to end."
  },
  {
   "property": "C41",
   "status": "partial",
   "theorems": [
    "Jinete.C41_two_routes",
    "Jinete.C41_two_opt_partial"
   ],
   "note": "The full claim TwoOptKeepsWork is false: two improvements of one route in a pass leave two routes for its vehicle and serve its trips twice. Proved: the pass never raises, leaves the originals alone, every result route is a reordering of the route of its vehicle and not worse; one route per vehicle implies the full claim."
  },
  {
   "property": "C42",
   "status": "proved",
   "theorems": [
    "Jinete.C42_two_opt_candidates"
   ],
   "note": "Also: the segments two-opt skips are exactly those containing a pickup and its delivery, and reversing such a segment would break precedence."
  },
  {
   "property": "C43",
   "status": "partial",
   "theorems": [
    "Jinete.C43_infeasible_result",
    "Jinete.C43_one_shift_feasible_partial"
   ],
   "note": "The full claim OneShiftKeepsFeasible is false: the verdict of the first flip is memoised and used for all later ones. Proved: every result route is either the original order of visits (hence feasible if it was) or has the memoised verdict True and, for Dial-a-Ride, a strictly larger value."
  },
  {
   "property": "C44",
   "status": "partial",
   "theorems": [
    "Jinete.C44_stale_times",
    "Jinete.C44_undone_flip_partial"
   ],
   "note": "The full claim UndoneFlipRestores is false: times memoised for the first stop while it came second survive the undoing. Proved: order, links and every other attribute are restored, whatever was asked in between; memoised times of the other stops from there on are dropped."
  },
  {
   "property": "C45",
   "status": "proved",
   "theorems": [
    "Jinete.C45_iterative_first_best",
    "Jinete.C45_iterative_returns"
   ],
   "note": "For an arbitrary inner algorithm; with no episodes the code raises AssertionError."
  },
  {
   "property": "C46",
   "status": "proved",
   "theorems": [
    "Jinete.C46_sequential_threads",
    "Jinete.C46_sequential_not_worse",
    "Jinete.C46_nothing_raises"
   ],
   "note": "For arbitrary stages."
  },
  {
   "property": "C47",
   "status": "proved",
   "theorems": [
    "Jinete.C47_coverage_rate",
    "Jinete.C47_undefined_iff_no_trips"
   ],
   "note": ""
  },
  {
   "property": "C48",
   "status": "partial",
   "theorems": [
    "Jinete.C48_empty_planning_raises",
    "Jinete.C48_optimize_returns_partial",
    "Jinete.C48_planning_feasible_iff"
   ],
   "note": "The full claim OptimizeReturns is false: Planning.feasible reduces an empty sequence, so optimize raises TypeError for a planning without routes. Proved for plannings with at least one route."
  },
  {
   "property": "C49",
   "status": "proved",
   "theorems": [
    "Jinete.C49_requests_paired",
    "Jinete.C49_vehicles",
    "Jinete.C49_loads_balance"
   ],
   "note": "The data is the list of number rows; reading them from the text of a file is modelled too, see C84 and C90 (FileText)."
  },
  {
   "property": "C50",
   "status": "partial",
   "theorems": [
    "Jinete.C50_depot_window_lost",
    "Jinete.C50_depot_window_partial"
   ],
   "note": "The full claim DepotWindowKept is false: the depot row is read for its position only, the window is dropped. Proved: the vehicles start from time 0 and have no closing time, whatever the depot row says."
  },
  {
   "property": "C51",
   "status": "proved",
   "theorems": [
    "Jinete.C51_one_trip_per_ride",
    "Jinete.C51_vehicles",
    "Jinete.C51_rows_have_six"
   ],
   "note": ""
  },
  {
   "property": "C52",
   "status": "partial",
   "theorems": [
    "Jinete.C52_late_delivery",
    "Jinete.C52_rides_finish_partial"
   ],
   "note": "The full claim RidesFinishInTime is false: the latest finish becomes a bound on the pickup only. Proved: every loaded ride is picked up between its earliest start and its latest finish."
  },
  {
   "property": "C53",
   "status": "proved",
   "theorems": [
    "Jinete.C53_output_read_back"
   ],
   "note": "For identifiers without blanks or line breaks, which all loaders produce."
  },
  {
   "property": "C54",
   "status": "partial",
   "theorems": [
    "Jinete.C54_file_truncated",
    "Jinete.C54_failed_store_loses",
    "Jinete.C54_failed_store_partial",
    "Jinete.C54_prompt_keeps"
   ],
   "note": "The full claim FailedStoreKeepsFile is false: the file is opened for writing before formatting. Proved: other files are untouched, a successful store writes the text, and the prompt storer prints nothing on failure."
  },
  {
   "property": "C55",
   "status": "proved",
   "theorems": [
    "Jinete.C55_each_storer_once"
   ],
   "note": "For arbitrary storers, including ones whose construction fails."
  },
  {
   "property": "C56",
   "status": "proved",
   "theorems": [
    "Jinete.C56_pipeline",
    "Jinete.C56_dispatcher_arguments_rejected"
   ],
   "note": "For arbitrary loaders, algorithms and storers, including failures. Arguments for the dispatcher itself are forwarded too, and rejected with TypeError as no dispatcher takes any; that case is the second theorem."
  },
  {
   "property": "C57",
   "status": "proved",
   "theorems": [
    "Jinete.Milp.C57_served_once"
   ],
   "note": "Any instance with at least one vehicle, any assignment."
  },
  {
   "property": "C58",
   "status": "partial",
   "theorems": [
    "Jinete.Milp.C58_respects_partial",
    "Jinete.Milp.C58_respects_quick_destinations_partial",
    "Jinete.Milp.C58_passengers_fit_partial",
    "Jinete.Milp.C58_destination_loading_ignored",
    "Jinete.Milp.C58_origin_window_for_destination",
    "Jinete.Milp.C58_load_may_jump"
   ],
   "note": "The full claim Respects is false: the loading time of destinations is ignored, a trip that ends where it starts gets the wrong window, and load variables change by at least (not exactly) the request. Proved with finite closing times and origin different from destination; the real number of passengers along the path always fits."
  },
  {
   "property": "C59",
   "status": "partial",
   "theorems": [
    "Jinete.Milp.C59_mixed_fleet_rejected",
    "Jinete.Milp.C59_small_vehicle_unsatisfiable",
    "Jinete.Milp.C59_admits_partial"
   ],
   "note": "The full claim Admits is false: one vehicle smaller than one trip makes the constraints unsatisfiable. Proved: if every vehicle can carry every trip (and destinations take at least as long as origins, and no trip ends where it starts), every timed plan gives a solution."
  },
  {
   "property": "C60",
   "status": "partial",
   "theorems": [
    "Jinete.Milp.C60_idle_vehicle_costs",
    "Jinete.Milp.C60_objective_is_distance_partial",
    "Jinete.Milp.C60_objective_excess_partial",
    "Jinete.Milp.C60_distinct_positions_partial"
   ],
   "note": "The full claim OrdersByDistance is false: arcs between equal positions cost 10000. Proved: the objective is the distance plus 10000 per such arc; equal to the distance if there is none."
  },
  {
   "property": "C61",
   "status": "partial",
   "theorems": [
    "Jinete.Milp.C61_truncates",
    "Jinete.Milp.C61_read_as_nearest_partial"
   ],
   "note": "The full claim is false: int truncates, an accepted value in [0.95, 1) is read as 0. Proved: exactly those values are misread."
  },
  {
   "property": "C62",
   "status": "partial",
   "theorems": [
    "Jinete.Milp.C62_second_trip_lost",
    "Jinete.Milp.C62_decodes_all_partial",
    "Jinete.Milp.C62_decodes_only_partial"
   ],
   "note": "The full claim DecodesAll is false for trips with a common origin. Proved for distinct origins, at the level of the list of decoded trips; for the routes built from it see C76 and C77."
  },
  {
   "property": "C63",
   "status": "partial",
   "theorems": [
    "Jinete.C63_first_wait_partial",
    "Jinete.C63_waits_late_depot",
    "Jinete.C63_waits_again"
   ],
   "note": "False of the code: the length of the wait is used as the time to leave the depot, so a vehicle whose depot opens later than 0, or that was postponed before, may still wait (two witnesses). Proved without maximum ride times: the timetable of a returned route is that of the draft with that depot start, an exact criterion for the remaining wait, and no wait when the depot departs at 0."
  },
  {
   "property": "C64",
   "status": "partial",
   "theorems": [
    "Jinete.C64_rejections_partial",
    "Jinete.C64_rejected"
   ],
   "note": "False of the code: a requested depot start left over from an earlier insertion gets a feasible insertion rejected (witness). Proved without maximum ride times: an insertion is returned if and only if the postponed draft meets all routing constraints; nothing is rejected wrongly when the left-over requests do no harm."
  },
  {
   "property": "C65",
   "status": "proved",
   "theorems": [
    "Jinete.C65_grasp_at_least_first_solutions"
   ],
   "note": "For arbitrary first solutions and improvement stages that do not worsen."
  },
  {
   "property": "C66",
   "status": "partial",
   "theorems": [
    "Jinete.Milp.C66_detached_loop",
    "Jinete.Milp.C66_depot_loop",
    "Jinete.Milp.C66_back_arc",
    "Jinete.Milp.C66_one_path_partial"
   ],
   "note": "The full claim OnePath is false in three ways. Proved if loading takes time, destinations close and the loop at the origin depot is unused: one path, besides it at most the arc from the destination depot to the origin depot."
  },
  {
   "property": "C67",
   "status": "proved",
   "theorems": [
    "Jinete.C67_job_loaded_once",
    "Jinete.C67_fleet_loaded_once",
    "Jinete.C67_same_data"
   ],
   "note": "For every formatter and every history of requests and file changes."
  },
  {
   "property": "C68",
   "status": "partial",
   "theorems": [
    "Jinete.C68_claim_fails",
    "Jinete.C68_set_rejects_file_path",
    "Jinete.C68_file_storer_not_constructed",
    "Jinete.C68_storers_combine_partial"
   ],
   "note": "The full claim SetAcceptsFileStorer is false: Storer.__init__ takes no further keyword arguments, so a StorerSet given file_path raises TypeError, and without it the FileStorer lacks it. Proved for storers without arguments of their own."
  },
  {
   "property": "C69",
   "status": "partial",
   "theorems": [
    "Jinete.C69_result_infeasible",
    "Jinete.C69_result_partial"
   ],
   "note": "The full claim InsertionFeasible is false (stale stop verdicts). Proved: all constraints but route duration, closing times for the schedule that serves the same visits as soon as possible; closing times of the route itself without maximum ride times."
  },
  {
   "property": "C70",
   "status": "proved",
   "theorems": [
    "Jinete.C70_routes_grow"
   ],
   "note": ""
  },
  {
   "property": "C71",
   "status": "proved",
   "theorems": [
    "Jinete.C71_size_zero_raises"
   ],
   "note": ""
  },
  {
   "property": "C72",
   "status": "proved",
   "theorems": [
    "Jinete.C72_two_opt_feasible"
   ],
   "note": "Also without feasible originals, in states reached by insertions."
  },
  {
   "property": "C73",
   "status": "proved",
   "theorems": [
    "Jinete.C73_one_shift_keeps_trips"
   ],
   "note": "About runs that return a result."
  },
  {
   "property": "C74",
   "status": "proved",
   "theorems": [
    "Jinete.C74_asking_changes_nothing"
   ],
   "note": "No hypotheses on the state."
  },
  {
   "property": "C75",
   "status": "proved",
   "theorems": [
    "Jinete.C75_reallocation_feasible"
   ],
   "note": ""
  },
  {
   "property": "C76",
   "status": "partial",
   "theorems": [
    "Jinete.C76_routes_follow_partial",
    "Jinete.C76_shared_destination_crashes",
    "Jinete.C76_shared_origin_lost",
    "Jinete.C76_second_depot_crashes",
    "Jinete.C76_second_depot_detour"
   ],
   "note": "The full claim FollowsSolutions is false: two consecutive deliveries at one place raise IndexError, a second trip with the same origin is lost, a vehicle with another depot raises ValueError or drives through the depot of the first one (witnesses). Proved if all vehicles start at one depot, no two places of the job coincide, boarding takes time, destinations close and the loop at the depot is unused."
  },
  {
   "property": "C77",
   "status": "partial",
   "theorems": [
    "Jinete.C77_routes_feasible_partial",
    "Jinete.C77_accepted_by_check_partial",
    "Jinete.C77_vehicle_hours_ignored",
    "Jinete.C77_slow_destination_infeasible",
    "Jinete.C76_shared_origin_lost"
   ],
   "note": "The full claim SolutionsFeasible is false: the hours of the vehicles and the time spent at destinations are not in the model, and a trip with a shared origin is lost (witnesses). Proved under the conditions of C76, one common end depot, unloading no longer than boarding, and vehicles available at the depot times of the solution."
  },
  {
   "property": "C78",
   "status": "partial",
   "theorems": [
    "Jinete.C78_shorter_routes_partial",
    "Jinete.C78_shortest_routes_partial",
    "Jinete.C78_idle_vehicle_avoided"
   ],
   "note": "The full claim PrefersShorter is false: with equal start and end depots an idle vehicle costs 10000, so that longer routes are preferred (witness). Proved under the conditions of C76 with all positions different, a symmetric metric and some plan shorter than 10000; optimality over all plans if moreover every vehicle can carry every trip and unloading takes at least as long as boarding."
  },
  {
   "property": "C79",
   "status": "proved",
   "theorems": [
    "Jinete.C79_reallocation_isolated",
    "Jinete.C79_two_opt_isolated",
    "Jinete.C79_one_shift_isolated"
   ],
   "note": "The only hypothesis on the state is that existing objects refer to existing objects, which the theorems give back for the final state."
  },
  {
   "property": "C80",
   "status": "proved",
   "theorems": [
    "Jinete.C80_insertion_isolated",
    "Jinete.C80_stateless_isolated",
    "Jinete.C80_second_run"
   ],
   "note": "Set orders must list elements of the sets; nothing else is assumed of settings, fuel and random choices."
  },
  {
   "property": "C81",
   "status": "proved",
   "theorems": [
    "Jinete.C81_local_search_whole",
    "Jinete.C81_local_search_feasible",
    "Jinete.C81_local_search_returns"
   ],
   "note": "The loop is modelled with a bound on its rounds; exceeding it is the error outOfFuel, which the last theorem excludes for Dial-a-Ride and Hash Code. Samples of index pairs are assumed to end."
  },
  {
   "property": "C82",
   "status": "proved",
   "theorems": [
    "Jinete.C82_default_stages_not_worse"
   ],
   "note": "The only error possible is outOfFuel: a loop does not end within the rounds given."
  },
  {
   "property": "C83",
   "status": "proved",
   "theorems": [
    "Jinete.C83_grasp_whole",
    "Jinete.C83_grasp_at_least_first",
    "Jinete.C83_grasp_returns"
   ],
   "note": "Randomized sizes are at least one (compare C71), set orders list elements of the sets. The fuel bounds the rounds of the inner loops; C83_grasp_returns gives a bound that suffices."
  },
  {
   "property": "C84",
   "status": "proved",
   "theorems": [
    "Jinete.C84_number_read",
    "Jinete.C84_file_read",
    "Jinete.C84_rows_unique",
    "Jinete.C84_instance_loaded",
    "Jinete.C84_plain_rows"
   ],
   "note": "The words inf and nan and digits outside ASCII, which Python's float accepts, are outside the model, which raises ValueError for them; so is rounding to floating point."
  },
  {
   "property": "C85",
   "status": "partial",
   "theorems": [
    "Jinete.C85_contest_score_partial",
    "Jinete.C85_late_ride_counted",
    "Jinete.C85_bonus_missed"
   ],
   "note": "False in general (two counterexamples): rides delivered late count for the objective, since the loader sets the latest finish as closing time of the start of the ride, and a start time left over at the depot may cost a bonus. Proved: if rides are delivered in time the contest gives at least the objective value, and exactly this value when no start time delays a ride."
  },
  {
   "property": "C86",
   "status": "partial",
   "theorems": [
    "Jinete.C86_grasp_submission_partial",
    "Jinete.C86_insertion_submission_partial",
    "Jinete.C86_lines_missing",
    "Jinete.C86_missing_file"
   ],
   "note": "False for one line per vehicle: the formatter removes routes without rides by default, so the submission has too few lines when there are more vehicles than rides (C86_lines_missing). Everything else is proved, and one line per vehicle if empty routes are kept. Settings of the algorithms are part of the algorithm in the model, not keyword arguments; reading a missing file raises (C86_missing_file), that writing a file may fail is not modelled."
  },
  {
   "property": "C87",
   "status": "partial",
   "theorems": [
    "Jinete.C87_report_shows_the_schedule_partial",
    "Jinete.C87_report_repeats",
    "Jinete.C87_reported_verdict",
    "Jinete.C87_stages",
    "Jinete.C87_raises_iff",
    "Jinete.C87_not_every_plan"
   ],
   "note": "The full claim EveryPlanReported is false: a job without trips has no coverage rate (ZeroDivisionError) and a planning without routes no verdict (TypeError). Proved for all others, with C87_raises_iff saying that these are the only failures. Numbers are exact; the identifier of the planning, the computation time and str of numbers are parameters."
  },
  {
   "property": "C88",
   "status": "partial",
   "theorems": [
    "Jinete.C88_ride_times_do_not_add_up",
    "Jinete.C88_ride_times_partial",
    "Jinete.C88_stop_times_add_up"
   ],
   "note": "The full claim RideTimesAddUp is false: loading at stops between pickup and delivery is in neither column. Proved: the difference is exactly that loading time, so the columns add up if nothing is loaded in between; the columns of stops always add up."
  },
  {
   "property": "C89",
   "status": "proved",
   "theorems": [
    "Jinete.C89_numbers_right_to_the_last_digit",
    "Jinete.C89_positions_read_back",
    "Jinete.C89_ride_line",
    "Jinete.C89_stop_line",
    "Jinete.C89_route_lines",
    "Jinete.C89_lines"
   ],
   "note": "Exact rationals instead of floating point numbers; in particular there is no negative zero. Lines are split correctly if identifiers have no white space."
  },
  {
   "property": "C90",
   "status": "partial",
   "theorems": [
    "Jinete.C90_insertion_reported_partial",
    "Jinete.C90_grasp_reported_partial",
    "Jinete.C90_no_requests",
    "Jinete.C90_no_vehicles",
    "Jinete.C90_not_every_instance",
    "Jinete.C90_none_is_default"
   ],
   "note": "The full claim EveryInstanceReported is false: without requests the report raises ZeroDivisionError after the optimisation (C90_no_requests), without vehicles the algorithm raises TypeError (C90_no_vehicles); nothing is printed then. Proved for all other data. The maximum duration of routes is not part of what served requests get, and closing times are those of the schedule that serves the visits as soon as possible: they can be violated otherwise, see C23. Euclidean distances are an arbitrary metric that is not negative."
  },
  {
   "property": "C91",
   "status": "proved",
   "theorems": [
    "Jinete.C91_options_grasp_ignores",
    "Jinete.C91_search_options_grasp_ignores"
   ],
   "note": "Runs are equal, including what they raise and the state they leave."
  },
  {
   "property": "C92",
   "status": "partial",
   "theorems": [
    "Jinete.C92_search_strategy_never_returns",
    "Jinete.C92_claim_fails"
   ],
   "note": "The full claim SearchStrategyAccepted is false: SequentialAlgorithm replaces the strategy by reallocation for its local search and passes the one asked for to the insertion that follows, which cannot construct it. Proved: no such call ever returns, for any problem, state and chance."
  },
  {
   "property": "C93",
   "status": "proved",
   "theorems": [
    "Jinete.C93_insertion_as_called",
    "Jinete.C93_grasp_as_called",
    "Jinete.C93_grasp_as_called_returns"
   ],
   "note": "Arguments as in Spec/Options. The sampling strategy always draws from the default seed 56, since the iterator takes the seed for itself. Values of numbers are integers."
  },
  {
   "property": "C94",
   "status": "proved",
   "theorems": [
    "Jinete.C94_seed_of_insertion",
    "Jinete.C94_grasp_without_chance",
    "Jinete.C94_seed_matters_for_two"
   ],
   "note": "C94_seed_matters_for_two shows that the bound on randomized_size is needed. Draws of the sampling strategy and of reallocation stay as they are; they do not depend on the seed."
  },
  {
   "property": "C95",
   "status": "proved",
   "theorems": [
    "Jinete.C95_insertion_ignores_unknown"
   ],
   "note": ""
  },
  {
   "property": "C96",
   "status": "proved",
   "theorems": [
    "Jinete.C96_plot_made",
    "Jinete.C96_edges",
    "Jinete.C96_nodes"
   ],
   "note": "What a plot consists of is modelled, not how it is drawn."
  },
  {
   "property": "C97",
   "status": "partial",
   "theorems": [
    "Jinete.C97_plot_tells_partial",
    "Jinete.C97_colours_iff",
    "Jinete.C97_labels_iff",
    "Jinete.C97_spare_vehicles",
    "Jinete.C97_tours_can_be_read",
    "Jinete.C97_claim_fails"
   ],
   "note": "The full claim PlotTells is false: two vehicles without trips share the leg from depot to depot, which has one colour only (C97_spare_vehicles). Proved: the exact conditions under which colours and labels tell routes and trips apart, and that the tours can then be read off."
  },
  {
   "property": "C98",
   "status": "partial",
   "theorems": [
    "Jinete.C98_saves_the_result_partial",
    "Jinete.C98_saved",
    "Jinete.C98_shown",
    "Jinete.C98_error",
    "Jinete.C98_second_image",
    "Jinete.C98_shown_then_saved",
    "Jinete.C98_claim_fails"
   ],
   "note": "The full claim SavesTheResult is false: saving does not end the current figure, so a second image shows the first plot too. Proved if nothing was drawn before, with the exact content otherwise. That savefig keeps the figure and show ends it is trusted library behaviour."
  },
  {
   "property": "C99",
   "status": "proved",
   "theorems": [
    "Jinete.C99_insertion_program",
    "Jinete.C99_grasp_program"
   ],
   "note": "More rounds than requests are given; for GRASP a number of rounds exists that depends on the data and distances only, and sampling has to end. Distances are an arbitrary metric that is not negative. Closing times are not part of what served requests get, see C23."
  },
  {
   "property": "C100",
   "status": "proved",
   "theorems": [
    "Jinete.C100_benchmark_program"
   ],
   "note": "As for C99. The image shows what was on the current figure before, too (C98)."
  },
  {
   "property": "C101",
   "status": "partial",
   "theorems": [
    "Jinete.C101_two_opt_program_fails",
    "Jinete.C101_claim_fails"
   ],
   "note": "The full claim TwoOptProgramReturns is false. Proved: the program raises on every instance with vehicles and requests, and prints, shows and writes nothing."
  },
  {
   "property": "C102",
   "status": "proved",
   "theorems": [
    "Jinete.C102_hashcode_program",
    "Jinete.C102_criterion_ignored",
    "Jinete.C102_criterion_would_matter"
   ],
   "note": "C102_criterion_would_matter is a single case showing that the criterion is not irrelevant as such."
  },
  {
   "property": "C103",
   "status": "partial",
   "theorems": [
    "Jinete.C103_milp_program_partial",
    "Jinete.C103_invalid_answer",
    "Jinete.C103_shared_place_crashes",
    "Jinete.C103_claim_fails"
   ],
   "note": "The full claim MilpProgramServes is false: with two requests to one place the program raises IndexError though the solver answers with a solution (C103_shared_place_crashes). Proved if no place occurs twice in the file, boarding takes time, leaving takes no longer than boarding and the solution does not use the loop at the depot. What the solver answers is arbitrary but for being a solution; it is exact, not in floating point."
  },
  {
   "property": "C104",
   "status": "proved",
   "theorems": [
    "Jinete.C104_fleet_and_job"
   ],
   "note": "repr of strings with unprintable characters is not modelled."
  },
  {
   "property": "C105",
   "status": "partial",
   "theorems": [
    "Jinete.C105_route_identifier_partial",
    "Jinete.C105_claim_fails"
   ],
   "note": "The full claim IdentifiersDiffer is false: two vehicles that serve nobody have routes with the same identifier. Proved: the identifier tells exactly which trips are served, visit by visit, if no trip has a bar or a closing bracket in its name (an example shows that this is needed)."
  },
  {
   "property": "C106",
   "status": "partial",
   "theorems": [
    "Jinete.C106_logging_has_no_influence_partial",
    "Jinete.C106_planned_trip",
    "Jinete.C106_claim_fails"
   ],
   "note": "The full claim LoggingHasNoInfluence is false: the text of a planned trip asks whether it is feasible, which raises if it has no stops. Proved for all other arguments (the algorithms use no others), with the exact effect for planned trips."
  },
  {
   "property": "C107",
   "status": "partial",
   "theorems": [
    "Jinete.C107_dataset_shown_partial",
    "Jinete.C107_hashcode_read_as_cordeau",
    "Jinete.C107_claim_fails"
   ],
   "note": "The full claim DatasetShown is false: the program reads a Hash Code file with the Cordeau-Laporte formatter and ends with IndexError after printing as many vehicles as the city has rows. Proved for Cordeau-Laporte files, and for Hash Code files if their formatter is given."
  },
  {
   "property": "C108",
   "status": "proved",
   "theorems": [
    "Jinete.C108_vehicle_text",
    "Jinete.C108_trip_text",
    "Jinete.C108_route_text"
   ],
   "note": "str of a number is a parameter; proved for numbers it writes out in full (str of a float always does), with infinity as inf."
  },
  {
   "property": "C109",
   "status": "partial",
   "theorems": [
    "Jinete.C109_service_text_partial",
    "Jinete.C109_claim_fails"
   ],
   "note": "The full claim ServiceTextTells is false: positions are rounded to three digits. Proved: the times are told exactly, the position up to rounding."
  },
  {
   "property": "C110",
   "status": "partial",
   "theorems": [
    "Jinete.C110_positions",
    "Jinete.C110_services_partial",
    "Jinete.C110_claim_fails"
   ],
   "note": "The full claim EqualServicesSame is false: Service.__eq__ compares hashes, and CPython gives -1 and -2 the same hash. Proved for positions; for services that equality is an equivalence compatible with hashes, and, for integer data and without collisions of tuple hashes, that confusing -1 and -2 is all that happens."
  },
  {
   "property": "C111",
   "status": "partial",
   "theorems": [
    "Jinete.C111_logs_partial",
    "Jinete.C111_claim_fails"
   ],
   "note": "The full claim EveryInstanceLogged is false: a process that fails, or reaches the time limit without output, leaves no log, and nobody notices. Proved: the contents of all files otherwise, for every interleaving."
  },
  {
   "property": "C112",
   "status": "partial",
   "theorems": [
    "Jinete.C112_partial",
    "Jinete.C112_claim_fails"
   ],
   "note": "The full claim EveryRouteTimed fails for every limit L on the nesting: the times are computed by recursion along the stops. Proved: with at most L stops the answer is the schedule's, and after a flush RecursionError is raised for every longer route. L counts nested computations of departure_time, not Python frames."
  },
  {
   "property": "C113",
   "status": "proved",
   "theorems": [
    "Jinete.C113_insertion_without_sampling",
    "Jinete.C113_local_search_without_sampling",
    "Jinete.C113_grasp_without_sampling",
    "Jinete.C113_grasp_returns",
    "Jinete.C113_seven_trips",
    "Jinete.C113_bound_witness"
   ],
   "note": "Equality of outcome and final state with the run that tries all pairs, for arbitrary random numbers and any number of them. C113_grasp_returns is C83_grasp_returns without its hypothesis that sampling ends. C113_bound_witness: with fewer pairs than the bound the outcome differs, or the run does not end."
  },
  {
   "property": "C114",
   "status": "proved",
   "theorems": [
    "Jinete.C114_reallocation_in_place",
    "Jinete.C114_two_opt_in_place",
    "Jinete.C114_depot_departure_changes",
    "Jinete.C114_one_shift_changes"
   ],
   "note": "with_copy=False. The last two are concrete witnesses that the exceptions named in the statement are needed."
  },
  {
   "property": "C115",
   "status": "proved",
   "theorems": [
    "Jinete.C115_never_returns",
    "Jinete.C115_in_place_never_returns",
    "Jinete.C115_reallocation_runs_forever"
   ],
   "note": "Non-termination is stated as: for every bound on the number of rounds the run does not return (C115_reallocation_runs_forever: it ends by using up the bound)."
  },
  {
   "property": "C116",
   "status": "proved",
   "theorems": [
    "Jinete.C116_rounded_times_in_order"
   ],
   "note": "Rounding after every addition and subtraction (Model/Rounded); memoised values are left out there, loads are exact because capacities are integers in both formats."
  },
  {
   "property": "C117",
   "status": "proved",
   "theorems": [
    "Jinete.C117_rounded_verdict",
    "Jinete.C117_exact"
   ],
   "note": "Error bounds are absolute on a range H; the exact schedule of the route is assumed to end by H/4."
  },
  {
   "property": "C118",
   "status": "proved",
   "theorems": [
    "Jinete.C118_round_double",
    "Jinete.C118_double_verdict",
    "Jinete.C118_integer_verdict",
    "Jinete.C118_verdicts_differ"
   ],
   "note": "Doubles without limits on the exponent: no overflow, underflow or NaN. Euclidean distances: C123."
  },
  {
   "property": "C119",
   "status": "proved",
   "theorems": [
    "Jinete.C119_answers_do_not_depend_on_questions",
    "Jinete.C119_any_two_orders"
   ],
   "note": "Self-contained is weaker than well formed; both theorems hold with stale caches. The questions are those of C74."
  },
  {
   "property": "C120",
   "status": "partial",
   "theorems": [
    "Jinete.C120_one_shift_returns_partial",
    "Jinete.C120_one_shift_raises"
   ],
   "note": "Holds when, in each route, the stops that serve trips were judged before or no load is memoised. False without that: a route built by hand of which only a load was asked makes one-shift raise AssertionError."
  },
  {
   "property": "C121",
   "status": "proved",
   "theorems": [
    "Jinete.C121_sqrt_double",
    "Jinete.C121_euclidean_double",
    "Jinete.squareDouble_well"
   ],
   "note": "Exponents are unbounded: no overflow or underflow of squares. sum adds from the left, as Python before 3.12 does (later versions compensate errors)."
  },
  {
   "property": "C122",
   "status": "partial",
   "theorems": [
    "Jinete.C122_triangle_partial",
    "Jinete.C122_no_metric"
   ],
   "note": "The full claim DoubleDistancesTriangle is false (C122_no_metric). Proved up to a relative error of 4(n+6) 2^-53."
  },
  {
   "property": "C123",
   "status": "proved",
   "theorems": [
    "Jinete.C123_euclidean_verdict",
    "Jinete.gridEuclidean_near"
   ],
   "note": "The exact problem has rational travel times within H 2^-53 of the real distances; gridEuclidean_near gives such travel times for every problem."
  },
  {
   "property": "C124",
   "status": "proved",
   "theorems": [
    "Jinete.C124_feasible_stops",
    "Jinete.C124_negative_capacity"
   ],
   "note": "No verdict memoised before; C19 tells what memoised verdicts do."
  },
  {
   "property": "C125",
   "status": "proved",
   "theorems": [
    "Jinete.C125_deliveries",
    "Jinete.C125_previous_pickups",
    "Jinete.C125_current",
    "Jinete.C125_ends"
   ],
   "note": ""
  },
  {
   "property": "C126",
   "status": "partial",
   "theorems": [
    "Jinete.C126_value_accuracy",
    "Jinete.C126_order_partial",
    "Jinete.C126_integers",
    "Jinete.C126_order_matters",
    "Jinete.euclidean_measures"
   ],
   "note": "The full claim ValuesOrderFree is false (C126_order_matters). Proved: same number of trips, lengths within the stated error in every order, exact for whole distances. sum adds from the left, as Python before 3.12 does."
  },
  {
   "property": "C127",
   "status": "proved",
   "theorems": [
    "Jinete.C127_best_planning"
   ],
   "note": "Dial-a-ride objective; exponents of doubles are unbounded."
  },
  {
   "property": "C128",
   "status": "proved",
   "theorems": [
    "Jinete.C128_only_the_itinerary_matters",
    "Jinete.C128_plannings"
   ],
   "note": "Routes without memoised verdicts; identifiers of stops do depend on the order (example)."
  },
  {
   "property": "C129",
   "status": "partial",
   "theorems": [
    "Jinete.C129_next_partial",
    "Jinete.C129_order_matters"
   ],
   "note": "The full claim InsertionIgnoresOrder is false (C129_order_matters). Proved: the same score of the next choice when the candidates are the same up to order."
  },
  {
   "property": "C130",
   "status": "proved",
   "theorems": [
    "Jinete.C130_more_episodes",
    "Jinete.C130_more_patience",
    "Jinete.C130_grasp_more_episodes",
    "Jinete.C130_local_search_more_patience",
    "Jinete.C130_more_first_solutions_may_hurt"
   ],
   "note": "Both runs start in the same state and draw the same seeds; the values are compared each in the state its run ends in."
  },
  {
   "property": "C131",
   "status": "partial",
   "theorems": [
    "Jinete.C131_integer_earnings_partial",
    "Jinete.C131_integer_rides_partial",
    "Jinete.C131_bonus_by_rounding",
    "Jinete.C131_rides_rounded"
   ],
   "note": "The full claims EarningsExact and RidingTimesExact are false of the code (one witness for both); proved for problems in integers."
  },
  {
   "property": "C132",
   "status": "partial",
   "theorems": [
    "Jinete.C132_rejections_final_partial",
    "Jinete.C132_rejections_final_unrequested_partial",
    "Jinete.C132_no_timing_is_earlier",
    "Jinete.C132_accepted_can_be_driven",
    "Jinete.C132_delay_saves_ride",
    "Jinete.C132_delay_saves_shift"
   ],
   "note": "The full claim RejectionsFinal is false (two witnesses). Proved when the schedule does not wait during limited rides and tours (WaitsOutside), in particular without such limits. Opening and closing times are the effective ones of C04."
  },
  {
   "property": "C133",
   "status": "partial",
   "theorems": [
    "Jinete.C133_removal_keeps_feasible_partial",
    "Jinete.C133_reallocation_origins_partial",
    "Jinete.C133_earlier_pickup_longer_ride",
    "Jinete.C133_shortcuts_matter"
   ],
   "note": "The full claim RemovalKeepsFeasible is false (C133_earlier_pickup_longer_ride). Proved when the shortened schedule does not wait during limited rides and tours; everything else of the statement without that condition."
  },
  {
   "property": "C134",
   "status": "proved",
   "theorems": [
    "Jinete.C134_some_of_the_trips",
    "Jinete.C134_alone",
    "Jinete.C134_rejected_alone"
   ],
   "note": "FeasibleTiming ranges over all timings of the visits (Spec/Timing.lean); the condition on detours is needed (C133_shortcuts_matter)."
  },
  {
   "property": "C135",
   "status": "proved",
   "theorems": [
    "Jinete.C135_idle_vehicle",
    "Jinete.C135_enough_vehicles",
    "Jinete.C135_all_served"
   ],
   "note": "Competing routes are described by Served: well formed, vehicle of the fleet, the right places, a feasible timing, no detour that saves time."
  },
  {
   "property": "C136",
   "status": "partial",
   "theorems": [
    "Jinete.C136_elsewhere_and_later",
    "Jinete.C136_insertions_partial",
    "Jinete.C136_later_rejected"
   ],
   "note": "Routes: proved in full. The claim for insertions, InsertsAlike, is false (C136_later_rejected); proved without ride limits when the clock stays or the shift is not limited."
  },
  {
   "property": "C137",
   "status": "partial",
   "theorems": [
    "Jinete.C137_same_times",
    "Jinete.C137_relaxing_keeps_feasible_partial",
    "Jinete.C137_longer_ride_allowed"
   ],
   "note": "The full claim RelaxingKeepsFeasible is false (C137_longer_ride_allowed). Proved: timings remain feasible and the schedule is never later; verdicts when the new schedule does not wait during limited rides and tours."
  },
  {
   "property": "C138",
   "status": "proved",
   "theorems": [
    "Jinete.C138_any_strategy",
    "Jinete.C138_rides_submitted",
    "Jinete.C138_all_such_rides",
    "Jinete.C138_no_other_rides",
    "Jinete.C138_no_other_rides_submitted",
    "Jinete.C138_way_back_needed"
   ],
   "note": "RoundTrip (Spec/Deliverable.lean) is stated with the numbers of the file. Exact arithmetic; times up to ERROR_BOUND, as in the code."
  },
  {
   "property": "C139",
   "status": "proved",
   "theorems": [
    "Jinete.C139_nothing_lost",
    "Jinete.C139_enough_vehicles",
    "Jinete.C139_all_served",
    "Jinete.C139_rides_submitted"
   ],
   "note": "Whether GRASP runs out of rounds is the subject of C83 and C86; the example shows it does not for enough rounds. Exact arithmetic."
  },
  {
   "property": "C140",
   "status": "proved",
   "theorems": [
    "Jinete.C140_line",
    "Jinete.C140_lines_submitted",
    "Jinete.C140_every_ride_scores",
    "Jinete.C140_any_strategy",
    "Jinete.C140_insertion_best",
    "Jinete.C140_grasp_best",
    "Jinete.C140_return_needed"
   ],
   "note": "ReturnsHome, Whole and the score are stated with the numbers of the file (Spec/Lines.lean, Spec/Contest.lean). Exact arithmetic."
  },
  {
   "property": "C141",
   "status": "partial",
   "theorems": [
    "Jinete.C141_uniform_partial",
    "Jinete.C141_served_iff_partial",
    "Jinete.C141_same_trips_partial",
    "Jinete.C141_no_others",
    "Jinete.C141_vehicle_too_many"
   ],
   "note": "The full claim MoreVehiclesServeMore is false of the code (C141_vehicle_too_many). Proved for enough vehicles of one kind, or such that each trip can be served alone by all vehicles or by none; C141_no_others holds for every good plan."
  },
  {
   "property": "C142",
   "status": "proved",
   "theorems": [
    "Jinete.C142_planning",
    "Jinete.C142_coverage_rate",
    "Jinete.C142_best_coverage",
    "Jinete.C142_same_coverage"
   ],
   "note": "That results of the algorithms are good plans is C83 for GRASP and insertion_planned for insertion. The share is stated with FeasibleItinerary of the single trip (servableShare). Exact arithmetic."
  },
  {
   "property": "C143",
   "status": "partial",
   "theorems": [
    "Jinete.C143_hash_code_partial",
    "Jinete.C143_hash_code_optimal",
    "Jinete.C143_dial_a_ride",
    "Jinete.C143_bonus_given_away"
   ],
   "note": "The full claim HashCodeBest is false of the code (C143_bonus_given_away). Proved up to the bonuses of the trips served; without bonuses, and for the number of trips, the result is optimal."
  },
  {
   "property": "C144",
   "status": "partial",
   "theorems": [
    "Jinete.C144_nothing_left_partial",
    "Jinete.C144_other_vehicle_tried"
   ],
   "note": "The full claim InsertionSettles is false of the code (C144_other_vehicle_tried). Proved for enough vehicles of one kind."
  },
  {
   "property": "C145",
   "status": "partial",
   "theorems": [
    "Jinete.C145_further_trips_partial",
    "Jinete.C145_never_fewer_partial",
    "Jinete.C145_lured_away"
   ],
   "note": "The full claim MoreTripsServeMore is false of the code (C145_lured_away). Proved for enough vehicles of one kind."
  }
 ]
}