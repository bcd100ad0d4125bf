{"id": "C01", "title": "Distance cache is transparent", "statement": "Whatever sequence of distance/time queries a GeometricSurface has answered before, the next query returns exactly the metric evaluated on the coordinates of the two positions asked for (in the order asked).", "quantifier": "every metric, every history of queries of any length, every pair of positions", "why_tests_cant": "a cache bug shows up only for particular earlier histories; histories are unbounded", "anchors": ["jinete/models/surfaces.py:GeometricSurface.distance", "jinete/models/surfaces.py:GeometricSurface.time", "jinete/models/positions.py:GeometricPosition.__eq__"]}
{"id": "C02", "title": "Both distance metrics are metrics", "statement": "For positions of the same dimension the Manhattan and Euclidean distances are non-negative, symmetric, zero exactly on equal coordinates, and satisfy the triangle inequality.", "quantifier": "every triple of coordinate tuples of every common dimension", "why_tests_cant": "coordinates and dimensions are unbounded; the triangle inequality relates three arbitrary points", "anchors": ["jinete/models/constants.py:DistanceMetric"]}
{"id": "C03", "title": "get_or_create_position keeps a duplicate-free catalogue", "statement": "After any sequence of get_or_create_position calls the surface knows exactly the coordinates that were requested (plus the initial ones), each once, and each call returned a position equal to the requested coordinates.", "quantifier": "every sequence of requests, every initial position set", "why_tests_cant": "depends on the whole request history", "anchors": ["jinete/models/surfaces.py:Surface.get_or_create_position"]}
{"id": "C04", "title": "Effective trip windows only tighten the declared ones", "statement": "The effective pickup and delivery windows of a trip are contained in the windows declared on its origin and destination services.", "quantifier": "every trip, every metric, finite or infinite timeouts and latest times", "why_tests_cant": "ranges over all rational time data including infinite bounds", "anchors": ["jinete/models/trips.py:Trip.origin_earliest", "jinete/models/trips.py:Trip.origin_latest", "jinete/models/trips.py:Trip.destination_earliest", "jinete/models/trips.py:Trip.destination_latest"]}
{"id": "C05", "title": "Effective trip windows lose no admissible service", "statement": "Any pair of service start times that respects both declared windows, the loading time at the origin, the direct travel time and the trip timeout also lies inside the effective windows.", "quantifier": "every trip and every admissible pair of service times", "why_tests_cant": "an off-by-one term only matters for particular combinations of durations, windows and timeouts", "anchors": ["jinete/models/trips.py:Trip.origin_earliest", "jinete/models/trips.py:Trip.origin_latest", "jinete/models/trips.py:Trip.destination_earliest", "jinete/models/trips.py:Trip.destination_latest"]}
{"id": "C06", "title": "Stop times follow the schedule recurrence in any reading order", "statement": "On a route whose stops are linked first to last, arrival, start, departure and waiting times reported by any stop are those of the unique forward schedule (depart depot at origin earliest, drive, wait for the window or the requested start, serve), no matter which stops were read before and which values are already cached.", "quantifier": "every linked route of every length, every cache-coherent heap, every query order", "why_tests_cant": "the memoised recursion depends on what has been read before and on route length", "anchors": ["jinete/models/stops.py:Stop.arrival_time", "jinete/models/stops.py:Stop.departure_time", "jinete/models/stops.py:Stop.starting_time", "jinete/models/stops.py:Stop.waiting_time"]}
{"id": "C07", "title": "Time never runs backwards along a route", "statement": "On a linked route, with non-negative distances and loading times, every stop starts no earlier than its arrival and its window opening, departs no earlier than it starts, arrives no earlier than the previous departure, and its waiting time is non-negative (so the internal assertion never fires).", "quantifier": "every linked route of every length, all non-negative distances and durations", "why_tests_cant": "needs induction along arbitrarily long routes", "anchors": ["jinete/models/stops.py:Stop.starting_time", "jinete/models/stops.py:Stop.waiting_time", "jinete/models/routes.py:Route.append_planned_trip"]}
{"id": "C08", "title": "Reported load is the number on board", "statement": "On a well-formed route the capacity reported at each stop is the total capacity of the trips picked up so far and not yet delivered; it is never negative (the internal assertion never fires) and it is zero at the last stop.", "quantifier": "every well-formed route of every length, every non-negative trip capacity", "why_tests_cant": "needs induction along arbitrarily long routes and any interleaving of pickups and deliveries", "anchors": ["jinete/models/stops.py:Stop.capacity", "jinete/models/stops.py:Stop.previous_capacity"]}
{"id": "C09", "title": "Assigning starting_time delays and propagates", "statement": "After `stop.starting_time = v` the stop starts at max(v, arrival, window opening), and every later stop of the route reports times computed from the new start.", "quantifier": "every linked route, every position in it, every v", "why_tests_cant": "staleness depends on which later stops were read before the assignment", "anchors": ["jinete/models/stops.py:Stop.starting_time", "jinete/models/stops.py:Stop.flush"]}
{"id": "C10", "title": "insert_stop splices right after the previous stop", "statement": "insert_stop of a new stop whose `previous` is a non-final stop of the route places it immediately after that stop, keeps all other stops in order, keeps every stop linked to its predecessor and drops the cached times from the insertion point on; if `previous` is not in the route it raises PreviousStopNotInRouteException and changes nothing.", "quantifier": "every linked route, every position, every new stop", "why_tests_cant": "pointer and list must stay consistent for every length and position", "anchors": ["jinete/models/routes.py:Route.insert_stop", "jinete/models/routes.py:Route.insert_stop_at"]}
{"id": "C11", "title": "insert_stop returns the inserted stop", "statement": "insert_stop and insert_stop_at return the stop that was inserted.", "quantifier": "every route and every insertion", "why_tests_cant": "the returned object depends on the position of the insertion", "anchors": ["jinete/models/routes.py:Route.insert_stop_at"]}
{"id": "C12", "title": "append_planned_trip keeps the route well formed", "statement": "Appending a planned trip whose pickup and delivery stops chain into the route keeps the stops linked, puts the pickup before the delivery, adds exactly that trip to the trips of the route, keeps all previous stops in order, and raises no assertion.", "quantifier": "every well-formed route, every insertion point, all non-negative distances and durations", "why_tests_cant": "assertions inside the method range over all stops of the route", "anchors": ["jinete/models/routes.py:Route.append_planned_trip"]}
{"id": "C13", "title": "remove_trip undoes append_planned_trip", "statement": "Removing a trip that was just appended restores the original list of stops, all links between them and all reported times.", "quantifier": "every well-formed route, every insertion point", "why_tests_cant": "round trip over pointer structure of unbounded length", "anchors": ["jinete/models/routes.py:Route.remove_trip", "jinete/models/routes.py:Route.remove_stop_at", "jinete/models/routes.py:Route.append_planned_trip"]}
{"id": "C14", "title": "remove_stop_at keeps the stops linked", "statement": "Removing the stop at any index of a linked route leaves a linked route without that stop.", "quantifier": "every linked route and every index", "why_tests_cant": "boundary indices behave differently from interior ones", "anchors": ["jinete/models/routes.py:Route.remove_stop_at"]}
{"id": "C15", "title": "A clone reports the same itinerary", "statement": "route.clone(idx) returns a route of the same vehicle with the same sequence of positions, requested starts, picked-up and delivered trips, hence the same schedule, for every idx.", "quantifier": "every well-formed route and every idx", "why_tests_cant": "the share/copy threshold depends on how trips straddle idx", "anchors": ["jinete/models/routes.py:RouteCloner", "jinete/models/routes.py:Route.clone"]}
{"id": "C16", "title": "Cloning never splits a planned trip and never touches the original", "statement": "route.clone(idx) changes no existing stop, planned trip or route; the clone shares a prefix of stops and every planned trip lies entirely in the shared prefix or entirely in freshly created stops; with idx = 0 nothing is shared.", "quantifier": "every well-formed route and every idx", "why_tests_cant": "depends on how all trips straddle the threshold", "anchors": ["jinete/models/routes.py:RouteCloner._initialize", "jinete/models/routes.py:RouteCloner.clone"]}
{"id": "C17", "title": "Clones are independent of the original", "statement": "Modifying the original route after cloning it does not change what the clone reports.", "quantifier": "every well-formed route, every idx, every later modification", "why_tests_cant": "aliasing only shows for particular idx/modification combinations", "anchors": ["jinete/models/routes.py:RouteCloner.clone", "jinete/models/routes.py:Route.insert_stop"]}
{"id": "C18", "title": "Route.feasible decides the routing constraints", "statement": "On a well-formed route without cached verdicts, `feasible` is True exactly when: it starts and ends at the vehicle's origin and destination, does not start before the origin window, ends by the destination's latest, lasts no longer than the vehicle timeout, and each served trip is picked up and delivered inside its effective windows, within vehicle capacity and within its ride-time limit (all up to ERROR_BOUND).", "quantifier": "every well-formed route", "why_tests_cant": "universally quantified equivalence over all stops and trips", "anchors": ["jinete/models/routes.py:Route.feasible", "jinete/models/planned_trips.py:PlannedTrip.feasible", "jinete/models/stops.py:Stop.feasible"]}
{"id": "C19", "title": "flush() makes verdicts fresh", "statement": "After route.flush(), route.feasible reflects the current start times of the stops.", "quantifier": "every route, every change of start times before the flush", "why_tests_cant": "staleness depends on which verdicts were cached before", "anchors": ["jinete/models/routes.py:Route.flush", "jinete/models/stops.py:Stop.flush", "jinete/models/stops.py:Stop.feasible"]}
{"id": "C20", "title": "A feasible route leaves within the vehicle's origin window", "statement": "If route.feasible is True, the first stop is left no later than vehicle.origin_latest (up to ERROR_BOUND).", "quantifier": "every route and vehicle", "why_tests_cant": "universally quantified implication over all routes", "anchors": ["jinete/models/routes.py:Route.feasible", "jinete/models/vehicles.py:Vehicle.origin_latest"]}
{"id": "C21", "title": "Insertion candidates contain exactly the old trips plus the new one", "statement": "InsertionStrategy.compute(route, trip, i, j) raises nothing for 0 <= i < j < len(route.stops) and each returned route has the stops of the given route in the same order, plus a pickup of the trip right after the i-th stop and a delivery of it before the j-th stop.", "quantifier": "every well-formed route, every trip not in it, every i < j", "why_tests_cant": "unbounded routes and insertion points", "anchors": ["jinete/algorithms/heuristics/insertion/strategies/abc.py:InsertionStrategy.compute", "jinete/algorithms/heuristics/insertion/strategies/abc.py:InsertionStrategy._compute_one", "jinete/algorithms/heuristics/insertion/strategies/abc.py:InsertionStrategy._build_pickup", "jinete/algorithms/heuristics/insertion/strategies/abc.py:InsertionStrategy._build_delivery"]}
{"id": "C22", "title": "Index pairs enumerate every insertion exactly once", "statement": "The pairs i < j used by IntensiveInsertionStrategy generate every way of placing a pickup and a later delivery strictly between the first and the last stop, and no placement twice.", "quantifier": "every route length", "why_tests_cant": "combinatorial statement for every length", "anchors": ["jinete/algorithms/heuristics/insertion/strategies/intensive.py", "jinete/algorithms/heuristics/insertion/strategies/tail.py", "jinete/algorithms/heuristics/insertion/strategies/abc.py"]}
{"id": "C23", "title": "Candidates returned as feasible satisfy the constraints", "statement": "Every route returned by InsertionStrategy.compute with only_feasible=True satisfies all routing constraints of C18 with the times it reports.", "quantifier": "every well-formed route, trip and insertion point", "why_tests_cant": "violations need a specific combination of windows, waiting and ride-time limit", "anchors": ["jinete/algorithms/heuristics/insertion/strategies/abc.py:InsertionStrategy._improve_ride_times", "jinete/models/stops.py:Stop.flush"]}
{"id": "C24", "title": "Computing candidates does not change the given route", "statement": "InsertionStrategy.compute(route, ...) leaves the schedule of the given route unchanged.", "quantifier": "every well-formed route, trip and insertion point", "why_tests_cant": "aliasing of shared stops shows only for some insertion points and windows", "anchors": ["jinete/algorithms/heuristics/insertion/strategies/abc.py:InsertionStrategy._improve_ride_times", "jinete/models/routes.py:RouteCloner.clone"]}
{"id": "C25", "title": "sample_index_pairs returns distinct valid pairs of the right number", "statement": "sample_index_pairs(n, count) returns pairwise distinct pairs (i, j) with 0 <= i < j < n; exactly min(count, n(n-1)/2) of them, all of them when count is at least that number, whatever the random source. It returns if and only if so many different pairs are drawn at some time, or there are no more of them.", "quantifier": "every n, count and random stream on which it returns", "why_tests_cant": "randomised loop; all random streams", "anchors": ["jinete/utils/random.py:sample_index_pairs"]}
{"id": "C26", "title": "ncr is the binomial coefficient", "statement": "ncr(n, r) equals the binomial coefficient for 0 <= r <= n.", "quantifier": "every n and r", "why_tests_cant": "all naturals", "anchors": ["jinete/utils/random.py:ncr"]}
{"id": "C27", "title": "remove_duplicates keeps first occurrences in order", "statement": "remove_duplicates(seq) has no repeated element, has the same elements as seq, keeps the order of first occurrences, and is idempotent.", "quantifier": "every list over every element type with equality", "why_tests_cant": "all lists", "anchors": ["jinete/utils/collections.py:remove_duplicates"]}
{"id": "C28", "title": "The insertion algorithm accounts for every trip", "statement": "With the default (ranking) iterator, after every step and at the end each trip of the job is either still pending or served by exactly one route, exactly once, and there is exactly one route per vehicle.", "quantifier": "every job, fleet, criterion, strategy, initial routes, random choices, set orders and number of steps", "why_tests_cant": "invariant over all runs of a randomised stateful loop", "anchors": ["jinete/algorithms/heuristics/insertion/iterators/abc.py:InsertionIterator", "jinete/algorithms/heuristics/insertion/iterators/ranking.py:RankingInsertionIterator", "jinete/algorithms/heuristics/insertion/algorithm.py:InsertionAlgorithm"]}
{"id": "C29", "title": "The insertion algorithm terminates", "statement": "The optimisation loop with the ranking iterator performs at most one accepted insertion per job trip and then stops.", "quantifier": "every job, fleet, strategy and random choices", "why_tests_cant": "termination is a statement about all runs", "anchors": ["jinete/algorithms/heuristics/insertion/iterators/ranking.py:RankingInsertionIterator.__next__", "jinete/algorithms/heuristics/insertion/algorithm.py:InsertionAlgorithm._optimize"]}
{"id": "C30", "title": "Greedy choice is the best ranked candidate", "statement": "With randomized_size = 1 the ranking iterator returns a route whose score is optimal among all ranked candidates of all vehicles.", "quantifier": "every ranking of any size, every scoring", "why_tests_cant": "selection loop over arbitrary rankings", "anchors": ["jinete/algorithms/heuristics/insertion/iterators/ranking.py:RankingInsertionIterator.__next__"]}
{"id": "C31", "title": "Randomised choice picks among the n best candidates", "statement": "With randomized_size = n the ranking iterator draws its route from the n best-scored ranked candidates.", "quantifier": "every ranking, every n >= 1", "why_tests_cant": "the candidate list depends on how scores interleave across vehicles", "anchors": ["jinete/algorithms/heuristics/insertion/iterators/ranking.py:RankingInsertionIterator.__next__"]}
{"id": "C32", "title": "The stateless iterator accounts for every trip", "statement": "With StatelessInsertionIterator, after every accepted route each trip of the job is either still pending or served by some route.", "quantifier": "every job, fleet and run", "why_tests_cant": "needs a run of at least two accepted routes", "anchors": ["jinete/algorithms/heuristics/insertion/iterators/abc.py:InsertionIterator._attractive_routes", "jinete/algorithms/heuristics/insertion/iterators/stateless.py:StatelessInsertionIterator.iterator"]}
{"id": "C33", "title": "The best-stateless iterator yields a best candidate", "statement": "next() on BestStatelessInsertionIterator returns one of the randomized_size best candidates, or stops when there is none.", "quantifier": "every set of candidates", "why_tests_cant": "all candidate sets", "anchors": ["jinete/algorithms/heuristics/insertion/iterators/stateless.py:BestStatelessInsertionIterator.__next__"]}
{"id": "C34", "title": "When insertion stops no pending trip can still be inserted", "statement": "When the ranking-based insertion stops, no pending trip has a feasible insertion into any vehicle's current route.", "quantifier": "every job, fleet and run", "why_tests_cant": "depends on the neighbourhood limit and on the whole run", "anchors": ["jinete/algorithms/heuristics/insertion/iterators/ranking.py:RankingInsertionIterator._create_sub_ranking", "jinete/algorithms/heuristics/insertion/iterators/abc.py:InsertionIterator._attractive_routes"]}
{"id": "C35", "title": "Objective.best is a first maximum", "statement": "objective.best(*values) returns the first of the non-None arguments with maximal objective value (lexicographic order on tuples), None if there is none; the value does not depend on the order of arguments.", "quantifier": "every list of optional values", "why_tests_cant": "all argument lists", "anchors": ["jinete/models/objectives.py:Objective.best", "jinete/models/constants.py:OptimizationDirection"]}
{"id": "C36", "title": "best, sorted and nbest of a criterion agree", "statement": "For each criterion, sorted(routes) is a stable rearrangement ordered from best to worst, nbest(n, routes) is its first n elements and best(*routes) its first element.", "quantifier": "every list of routes, every scoring, every n", "why_tests_cant": "all lists and scorings, ties included", "anchors": ["jinete/models/criterions.py:RouteCriterion", "jinete/models/constants.py:OptimizationDirection.sorted", "jinete/models/constants.py:OptimizationDirection.nbest"]}
{"id": "C37", "title": "Criteria never prefer an infeasible route", "statement": "For each of the six criteria, best(a, b) is feasible whenever a or b is feasible.", "quantifier": "every pair of routes", "why_tests_cant": "all pairs of routes", "anchors": ["jinete/models/criterions.py"]}
{"id": "C38", "title": "Planning objective is the sum over its routes in any order", "statement": "The objective value of a planning is the component-wise sum of the values of its routes, independent of the iteration order of the set; for the dial-a-ride objective it is (number of served trips, minus total distance).", "quantifier": "every planning of every size, every order", "why_tests_cant": "all plannings and orders", "anchors": ["jinete/models/objectives.py:Objective._planning_optimization_function", "jinete/models/objectives.py:DialARideObjective"]}
{"id": "C39", "title": "Local search never returns a worse result", "statement": "LocalSearchAlgorithm returns a planning whose objective value is at least that of the initial result, for any strategy, and its loop ends after at most no_improvement_threshold consecutive rounds without strict improvement.", "quantifier": "every strategy, initial result and threshold", "why_tests_cant": "loop over unbounded number of improvements", "anchors": ["jinete/algorithms/heuristics/local_search/algorithm.py:LocalSearchAlgorithm._optimize"]}
{"id": "C40", "title": "Reallocation keeps every trip", "statement": "ReallocationLocalSearchStrategy.improve returns a result with the same served trips, each once, and one route per vehicle; if anything changed, the last objective component strictly improved.", "quantifier": "every planning with one route per vehicle", "why_tests_cant": "all plannings; nested loops over routes, trips and index pairs", "anchors": ["jinete/algorithms/heuristics/local_search/strategies/plannings/reallocation.py"]}
{"id": "C41", "title": "Two-opt keeps every trip", "statement": "TwoOPTLocalSearchStrategy.improve returns a result with one route per vehicle, serving the same trips, each once.", "quantifier": "every planning with one route per vehicle", "why_tests_cant": "needs two improvements of the same route in one pass", "anchors": ["jinete/algorithms/heuristics/local_search/strategies/routes/two_opt.py", "jinete/algorithms/heuristics/local_search/strategies/abc.py:LocalSearchStrategy._update_routes"]}
{"id": "C42", "title": "Two-opt candidates respect precedence", "statement": "Each candidate route built by two-opt visits the same stops (a segment reversed), keeps stops linked, and still picks up every trip before delivering it.", "quantifier": "every well-formed route and every segment", "why_tests_cant": "all routes and segments", "anchors": ["jinete/algorithms/heuristics/local_search/strategies/routes/two_opt.py"]}
{"id": "C43", "title": "One-shift accepts only feasible routes", "statement": "OneShiftLocalSearchStrategy.improve applied to feasible routes yields routes that satisfy the routing constraints.", "quantifier": "every planning of feasible routes", "why_tests_cant": "needs a sequence of flips on one route", "anchors": ["jinete/algorithms/heuristics/local_search/strategies/routes/one_shift.py"]}
{"id": "C44", "title": "A rejected one-shift flip restores the route", "statement": "When one-shift undoes a flip, the route has the same stop order, links and reported times as before the flip.", "quantifier": "every linked route and every index", "why_tests_cant": "staleness depends on cached values", "anchors": ["jinete/algorithms/heuristics/local_search/strategies/routes/one_shift.py:OneShiftLocalSearchStrategy._flip"]}
{"id": "C45", "title": "Iterative algorithm returns the best episode", "statement": "IterativeAlgorithm runs the inner algorithm exactly `episodes` times and returns the planning of the first episode with maximal objective value.", "quantifier": "every inner algorithm, number of episodes >= 1, restart mode and seed stream", "why_tests_cant": "all episode counts and inner algorithms", "anchors": ["jinete/algorithms/metaheuristics/iterative.py:IterativeAlgorithm._optimize"]}
{"id": "C46", "title": "Sequential algorithm threads results through its stages", "statement": "SequentialAlgorithm runs its algorithms in order, each initialised with the previous result, and returns the planning of the last; if each stage is non-worsening so is the whole.", "quantifier": "every list of stages", "why_tests_cant": "all stage lists", "anchors": ["jinete/algorithms/metaheuristics/sequential.py:SequentialAlgorithm._optimize"]}
{"id": "C47", "title": "coverage_rate is the fraction of served job trips", "statement": "For a result whose routes serve only trips of the job, coverage_rate is in [0, 1], equals 1 exactly when all job trips are served with non-zero capacity, and is undefined (division by zero) only for an empty job.", "quantifier": "every result", "why_tests_cant": "all results", "anchors": ["jinete/models/results.py:Result.coverage_rate", "jinete/models/results.py:Result.completed_trips"]}
{"id": "C48", "title": "optimize() returns a result for every planning", "statement": "Algorithm.optimize returns a Result carrying the planning produced by the algorithm, in particular for NaiveAlgorithm (the empty planning).", "quantifier": "every algorithm and planning", "why_tests_cant": "all plannings, including the empty one", "anchors": ["jinete/algorithms/abc.py:Algorithm.optimize", "jinete/models/plannings.py:Planning.feasible", "jinete/algorithms/naive.py"]}
{"id": "C49", "title": "Cordeau-Laporte loading pairs rows correctly", "statement": "For well-shaped data with n requests and m vehicles the loader produces m vehicles with distinct identifiers and n trips with distinct identifiers, trip k taking its origin from request row k and its destination from row k+n, each request row used exactly once.", "quantifier": "every n, m and row contents", "why_tests_cant": "index arithmetic for every n", "anchors": ["jinete/loaders/formatters/cordeau_laporte.py"]}
{"id": "C50", "title": "Cordeau-Laporte vehicles obey the depot window", "statement": "Loaded vehicles carry the time window given in the depot row.", "quantifier": "every data set", "why_tests_cant": "depends on file contents", "anchors": ["jinete/loaders/formatters/cordeau_laporte.py:CordeauLaporteLoaderFormatter.fleet"]}
{"id": "C51", "title": "HashCode loading builds one trip per ride row", "statement": "For well-shaped data the HashCode loader produces the declared number of vehicles and one trip per ride row, with distinct identifiers equal to the row index, and the declared coordinates, earliest time and bonus.", "quantifier": "every data set", "why_tests_cant": "all numbers of rides", "anchors": ["jinete/loaders/formatters/hashcode.py"]}
{"id": "C52", "title": "HashCode rides finish by their latest finish", "statement": "On a feasible route every loaded HashCode ride is delivered no later than the latest finish of its row.", "quantifier": "every data set and feasible route", "why_tests_cant": "needs a ride picked up in time but delivered late", "anchors": ["jinete/loaders/formatters/hashcode.py:HashCodeLoaderFormatter._build_trip"]}
{"id": "C53", "title": "HashCode output can be read back", "statement": "From the text written by HashCodeStorerFormatter one can recover, for each stored route, the number of loaded trips and their identifiers in pickup order.", "quantifier": "every result whose identifiers contain no whitespace", "why_tests_cant": "round trip for every number of routes and trips", "anchors": ["jinete/storers/formatters/hashcode.py"]}
{"id": "C54", "title": "A failed store keeps the previous file", "statement": "If formatting the result raises, FileStorer.store leaves the contents of the target file unchanged.", "quantifier": "every previous content and every formatter failure", "why_tests_cant": "crash point between open and write", "anchors": ["jinete/storers/file.py:FileStorer.store"]}
{"id": "C55", "title": "StorerSet stores once with every storer", "statement": "StorerSet.store runs each configured storer exactly once on the same result; a failing storer prevents exactly the later ones.", "quantifier": "every list of storers", "why_tests_cant": "all lists and failure points", "anchors": ["jinete/storers/sets.py:StorerSet.store"]}
{"id": "C56", "title": "The dispatcher solves the loaded instance and stores the returned result", "statement": "StaticDispatcher.run passes the loader's job and fleet to the algorithm, optimises once, stores exactly the result it returns, and Solver forwards the configured arguments to each component.", "quantifier": "every loader, algorithm and storer, including failing ones", "why_tests_cant": "all components and failure points", "anchors": ["jinete/dispatchers/static.py:StaticDispatcher.run", "jinete/solvers.py:Solver"]}
{"id": "C57", "title": "MILP solutions serve each trip once by one vehicle", "statement": "In every assignment satisfying the three-index constraints each pickup is left by exactly one vehicle over exactly one arc, its delivery is left by the same vehicle over exactly one arc, and each vehicle leaves the origin depot and enters the destination depot exactly once.", "quantifier": "every instance and every assignment", "why_tests_cant": "all instances and solver outputs", "anchors": ["jinete/algorithms/exacts/models/three_index.py:ThreeIndexLinearModel._uniqueness_constraints", "jinete/algorithms/exacts/models/three_index.py:ThreeIndexLinearModel._connectivity_constraints"]}
{"id": "C58", "title": "MILP solutions respect times, ride limits and capacities", "statement": "In every assignment satisfying the constraints, along every used arc service times advance by at least loading plus travel time and loads change by the request, times lie in the windows, ride times within the timeouts, loads within the vehicle capacity and route durations within the vehicle timeout.", "quantifier": "every instance and every assignment", "why_tests_cant": "all instances and solver outputs; big-M constants must be valid", "anchors": ["jinete/algorithms/exacts/models/three_index.py:ThreeIndexLinearModel._time_constraints", "jinete/algorithms/exacts/models/three_index.py:ThreeIndexLinearModel._feasibility_constraints"]}
{"id": "C59", "title": "The MILP admits heterogeneous fleets", "statement": "If the job can be served when each trip is given to a large enough vehicle, the constraints are satisfiable.", "quantifier": "every fleet", "why_tests_cant": "needs a fleet with one small vehicle", "anchors": ["jinete/algorithms/exacts/models/three_index.py:ThreeIndexLinearModel._feasibility_constraints"]}
{"id": "C60", "title": "The MILP objective is the travelled distance", "statement": "Among assignments satisfying the constraints, the objective orders solutions by total travelled distance.", "quantifier": "every instance", "why_tests_cant": "penalty constants matter only when positions coincide", "anchors": ["jinete/algorithms/exacts/models/three_index.py:ThreeIndexLinearModel._costs", "jinete/algorithms/exacts/models/three_index.py:ThreeIndexLinearModel._objective"]}
{"id": "C61", "title": "A validated MILP solution is decoded as its rounding", "statement": "Every arc value accepted by the solution validation (within 0.05 of 0 or 1) is read as the nearest integer.", "quantifier": "every arc value", "why_tests_cant": "solver tolerances are not controlled by tests", "anchors": ["jinete/algorithms/exacts/models/three_index.py:ThreeIndexLinearModel._validate", "jinete/algorithms/exacts/models/three_index.py:ThreeIndexLinearModel._solution_to_positions"]}
{"id": "C62", "title": "MILP decoding plans every visited trip", "statement": "The routes decoded from a solution contain each trip whose pickup node the vehicle visits.", "quantifier": "every instance and solution", "why_tests_cant": "needs coinciding positions", "anchors": ["jinete/algorithms/exacts/models/three_index.py:ThreeIndexLinearModel._positions_to_trips", "jinete/algorithms/exacts/models/three_index.py:ThreeIndexLinearModel._build_planned_trips"]}
{"id": "C63", "title": "A returned insertion does not wait at its first served stop", "statement": "In every route returned by an insertion strategy the vehicle leaves the depot so late that it does not wait at the first served stop.", "quantifier": "every reachable state, strategy, trip and index pair", "why_tests_cant": "depends on cached times and on the order in which start times are set", "anchors": ["jinete/algorithms/heuristics/insertion/strategies/abc.py:InsertionStrategy.compute"]}
{"id": "C64", "title": "Feasible placements are not rejected", "statement": "If inserting a trip at a pair of indices gives an itinerary that meets the routing constraints when every stop is served as early as possible, compute with only_feasible does not reject it.", "quantifier": "every reachable state, trip and index pair", "why_tests_cant": "needs requested start times left over from earlier insertions", "anchors": ["jinete/algorithms/heuristics/insertion/strategies/abc.py:InsertionStrategy.compute"]}
{"id": "C65", "title": "GRASP keeps its first solutions as lower bounds", "statement": "If no improvement stage worsens the result it starts from, the result of GraspAlgorithm is at least as good as the first solution of each of its episodes.", "quantifier": "every first-solution algorithm, stages, seeds and numbers of episodes", "why_tests_cant": "loop nesting with randomised inner algorithms", "anchors": ["jinete/algorithms/metaheuristics/grasp.py:GraspAlgorithm._optimize"]}
{"id": "C66", "title": "MILP arcs of a vehicle form one path", "statement": "In every assignment satisfying the three-index constraints, the arcs used by a vehicle form one simple path from the origin depot to the destination depot through all nodes it visits.", "quantifier": "every instance and assignment", "why_tests_cant": "all assignments, including ones no solver run produced; subtours without duration", "anchors": ["jinete/algorithms/exacts/models/three_index.py:ThreeIndexLinearModel._constraints"]}
{"id": "C67", "title": "A loader reads its data once", "statement": "Once a FileLoader has returned a job (or a fleet), every later request returns the same one without reading the file again, and the job and the fleet of one loader come from the same data even if the file changes in between.", "quantifier": "every formatter, file content, and sequence of requests, failures and file changes", "why_tests_cant": "unbounded histories with the file changing between calls", "anchors": ["jinete/loaders/file.py:FileLoader", "jinete/loaders/abc.py:Loader"]}
{"id": "C68", "title": "Storers can be combined", "statement": "A StorerSet can be given storers that need arguments of their own, such as the file path of FileStorer.", "quantifier": "every set of keyword arguments", "why_tests_cant": "the failing combination is never constructed in the tests", "anchors": ["jinete/storers/sets.py:StorerSet", "jinete/storers/abc.py:Storer", "jinete/storers/file.py:FileStorer"]}
{"id": "C69", "title": "Results of the insertion algorithm meet the routing constraints", "statement": "Every route in the result of InsertionAlgorithm (only_feasible, ranking iterator, no initial result) that serves a trip satisfies the time windows, ride times, capacities and the vehicle's own constraints when its schedule is recomputed.", "quantifier": "every job, fleet, criterion, strategy, random choices and set orders", "why_tests_cant": "memoised verdicts of shared stops across a whole run; needs interacting trips", "anchors": ["jinete/algorithms/heuristics/insertion/algorithm.py:InsertionAlgorithm._optimize", "jinete/algorithms/heuristics/insertion/iterators/ranking.py:RankingInsertionIterator"]}
{"id": "C70", "title": "Insertion never reorders what is already planned", "statement": "The route of each vehicle in the result of InsertionAlgorithm is its initial route with trips inserted: existing visits keep their order and their services and none is dropped.", "quantifier": "every job, fleet, criterion, strategy, initial routes, random choices and set orders", "why_tests_cant": "unbounded runs from arbitrary initial results", "anchors": ["jinete/algorithms/heuristics/insertion/algorithm.py:InsertionAlgorithm._optimize", "jinete/algorithms/heuristics/insertion/iterators/ranking.py:RankingInsertionIterator"]}
{"id": "C71", "title": "A randomized_size of zero is not taken for exhaustion", "statement": "With randomized_size = 0 the ranking iterator raises IndexError from next() whenever some vehicle has a ranked candidate; it never stops the iteration quietly with candidates left.", "quantifier": "every iterator state with a candidate", "why_tests_cant": "the value is not rejected by any constructor and is never used in the tests", "anchors": ["jinete/algorithms/heuristics/insertion/iterators/ranking.py:RankingInsertionIterator.__next__"]}
{"id": "C72", "title": "Two-opt keeps plannings feasible", "statement": "If the routes TwoOPTLocalSearchStrategy.improve starts from satisfy the routing constraints, so does every route of its result, whatever feasibility verdicts are memoised in the copied stops.", "quantifier": "every planning with one route per vehicle and every memoised verdict", "why_tests_cant": "stale verdicts travel with deep copies", "anchors": ["jinete/algorithms/heuristics/local_search/strategies/routes/two_opt.py", "jinete/models/stops.py:Stop.feasible"]}
{"id": "C73", "title": "One-shift keeps every trip", "statement": "When OneShiftLocalSearchStrategy.improve returns, its result has the same vehicles and trips, each once; every route makes the visits of the original route of its vehicle in some order, picks up every trip before dropping it, and is still a consistent linked list; the original routes are as before. With the Dial-a-Ride objective no route got worse.", "quantifier": "every planning with one route per vehicle, every objective and every set order", "why_tests_cant": "routes are edited in place through memoised and partly stale values", "anchors": ["jinete/algorithms/heuristics/local_search/strategies/routes/one_shift.py", "jinete/algorithms/heuristics/local_search/strategies/abc.py:LocalSearchStrategy.improve"]}
{"id": "C74", "title": "Asking changes nothing", "statement": "Reading arrival times, loads, feasibility, durations, objective values, insertion scores or rankings changes no attribute of any stop, planned trip or route and overturns no memoised verdict, whether the answer is a value or an exception.", "quantifier": "every state of the objects, consistent or not, and every sequence of questions", "why_tests_cant": "all states, including stale and inconsistent ones, and all orders of questions", "anchors": ["jinete/models/stops.py", "jinete/models/planned_trips.py", "jinete/models/routes.py", "jinete/models/plannings.py", "jinete/models/objectives.py"]}
{"id": "C75", "title": "Reallocation keeps plannings feasible", "statement": "In states reached by the insertion strategies: if the routes ReallocationLocalSearchStrategy.improve starts from satisfy the routing constraints other than route durations, with closing times for the schedule that serves the same visits as soon as possible, so does every route of its result; if no trip has a maximum ride time and no vehicle a maximum duration, the same holds for all constraints.", "quantifier": "every reachable state, planning with one route per vehicle, objective, set order and sample of index pairs", "why_tests_cant": "copies and insertions go through memoised verdicts and shared depot stops", "anchors": ["jinete/algorithms/heuristics/local_search/strategies/plannings/reallocation.py", "jinete/algorithms/heuristics/local_search/strategies/abc.py:LocalSearchStrategy.improve"]}
{"id": "C76", "title": "Routes built from a solution follow it", "statement": "From every solution of the three-index model, one route is built for each vehicle; it visits the nodes on the vehicle's path from depot to depot in their order, at the times of the solution, and picks up and drops there exactly the trips of these nodes. Existing objects are untouched, and the routes are consistent linked lists without memoised values.", "quantifier": "every job, every solution of the model, every state of the objects", "why_tests_cant": "solutions are produced by an external solver; stops are matched by position only", "anchors": ["jinete/algorithms/exacts/models/three_index.py:ThreeIndexLinearModel._solution_to_routes", "jinete/algorithms/exacts/models/three_index.py:ThreeIndexLinearModel._positions_to_stops", "jinete/algorithms/exacts/models/three_index.py:ThreeIndexLinearModel._build_planned_trips", "jinete/algorithms/exacts/models/three_index.py:ThreeIndexLinearModel._adjust_waiting_times", "jinete/algorithms/exacts/milp.py:MilpAlgorithm._optimize"]}
{"id": "C77", "title": "Routes built from a solution are feasible and serve every trip", "statement": "The routes built from a solution of the three-index model meet all routing constraints (time windows, loads, ride times, depots, durations), the feasibility check of the code accepts them, and every trip of the job is picked up and dropped exactly once.", "quantifier": "every job and every solution of the model", "why_tests_cant": "needs all solutions of a mixed-integer program, and the interplay of its constraints with the schedule of the routes", "anchors": ["jinete/algorithms/exacts/models/three_index.py:ThreeIndexLinearModel._constraints", "jinete/algorithms/exacts/models/three_index.py:ThreeIndexLinearModel._solution_to_routes", "jinete/models/routes.py:Route.feasible"]}
{"id": "C78", "title": "Optimal solutions give shortest routes", "statement": "The routes built from an optimal solution of the three-index model have the best possible Dial-a-Ride value: they serve all trips, and their total length is at most that of any timed plan that serves the job.", "quantifier": "every job, every optimal solution and every plan", "why_tests_cant": "optimality quantifies over all solutions of the program and all plans", "anchors": ["jinete/algorithms/exacts/models/three_index.py:ThreeIndexLinearModel._objective", "jinete/algorithms/exacts/models/three_index.py:ThreeIndexLinearModel._solution_to_routes", "jinete/models/objectives.py:DialARideObjective"]}
{"id": "C79", "title": "Local search works on copies only", "statement": "LocalSearchStrategy.improve with reallocation, two-opt or one-shift, whether it returns or raises, changes no attribute and no memoised value of any stop, planned trip or route that existed before; the routes it returns, their stops and their planned trips are all new objects, none of which refers to an old one.", "quantifier": "every state of the objects in which references exist, consistent or not, every objective, set order and sample of index pairs", "why_tests_cant": "aliasing through predecessor links, planned trips and shared stops, over all states including inconsistent ones and runs that raise", "anchors": ["jinete/algorithms/heuristics/local_search/strategies/abc.py:LocalSearchStrategy.improve", "jinete/models/routes.py:Route.__deepcopy__", "jinete/models/routes.py:RouteCloner"]}
{"id": "C80", "title": "Insertion works on copies only", "statement": "InsertionAlgorithm, with the ranking or the stateless iterator, with or without initial routes, whether it returns or raises, changes no attribute and no memoised value of any object that existed before, and the routes of its result share no object with what existed. In particular the planning it was started from can be reused.", "quantifier": "every state of the objects in which references exist, all settings, random choices and set orders", "why_tests_cant": "aliasing through clones that share prefixes, over all states and runs", "anchors": ["jinete/algorithms/heuristics/insertion/iterators/abc.py:InsertionIterator.__init__", "jinete/algorithms/heuristics/insertion/iterators/ranking.py", "jinete/algorithms/heuristics/insertion/iterators/stateless.py"]}
{"id": "C81", "title": "Local search as a whole", "statement": "LocalSearchAlgorithm with reallocation never raises; whenever it returns, the result has one sound route per vehicle, serves exactly the trips of the initial planning with a value that is not lower, keeps the initial routes as they were, and keeps feasibility as a single pass does. With the Dial-a-Ride or the Hash Code objective it always returns, after a number of rounds that does not depend on chance.", "quantifier": "every planning with one route per vehicle and one trip per stop, objective, threshold, random draws and set orders", "why_tests_cant": "arbitrarily many rounds, each creating objects and reading memoised values; termination over all random draws", "anchors": ["jinete/algorithms/heuristics/local_search/algorithm.py:LocalSearchAlgorithm._optimize", "jinete/algorithms/heuristics/local_search/strategies/plannings/reallocation.py", "jinete/algorithms/abc.py:Algorithm.optimize"]}
{"id": "C82", "title": "The default improvement stages do not worsen", "statement": "The default stages of SequentialAlgorithm, local search with reallocation and then insertion, turn a planning for the problem (fleet and job) into a planning for the problem that is not worse under the Dial-a-Ride objective, and leave the given planning as it was; no exception occurs.", "quantifier": "every fleet, job, planning, settings, random draws and set orders", "why_tests_cant": "composition of two algorithms on shared objects, all executions", "anchors": ["jinete/algorithms/metaheuristics/sequential.py:SequentialAlgorithm._optimize", "jinete/algorithms/heuristics/local_search/algorithm.py", "jinete/algorithms/heuristics/insertion/algorithm.py"]}
{"id": "C83", "title": "GRASP as a whole", "statement": "GraspAlgorithm with its default algorithms returns a planning for the problem: one sound route per vehicle, each trip of the job at most once, routes that serve something meeting the routing constraints apart from durations (closing times when their visits are served as soon as possible), and all of them without ride limits and maximum durations. Under the Dial-a-Ride objective the result is at least as good as every first solution built during the run; under the Dial-a-Ride and Hash Code objectives, if the sampling of the strategies ends, the run ends after a number of rounds that depends on the problem only.", "quantifier": "every fleet, job, objective, state of the objects, settings, seeds, random draws, set orders and numbers of episodes (at least one)", "why_tests_cant": "nested loops of algorithms, all of them working on one growing collection of objects with memoised values", "anchors": ["jinete/algorithms/metaheuristics/grasp.py:GraspAlgorithm._optimize", "jinete/algorithms/metaheuristics/iterative.py:IterativeAlgorithm._optimize", "jinete/algorithms/metaheuristics/sequential.py:SequentialAlgorithm._optimize"]}
{"id": "C84", "title": "Input files are read as the numbers written in them", "statement": "FileLoader turns the text of a file into exactly the rows of numbers that are written in it: lines end at line feed, carriage return or both, words are separated by white space, numbers have a sign, digits, a point and a power of ten; a text containing any other word raises ValueError. The formatter is given these rows, for job and fleet alike, and the file is read once.", "quantifier": "every text, formatter and row", "why_tests_cant": "unboundedly many texts, notations and line ends; uniqueness of the reading", "anchors": ["jinete/loaders/file.py:FileLoader._data", "jinete/loaders/file.py:FileLoader.job", "jinete/loaders/file.py:FileLoader.fleet"]}
{"id": "C85", "title": "Objective value and contest score", "statement": "For rides loaded from a Hash Code file and routes that serve them within the routing constraints, the HashCode objective equals the score the contest gives to the rides of these routes in their order.", "quantifier": "every data set, planning and order of routes", "why_tests_cant": "two independent ways of scoring, over all data sets, routes and start times", "anchors": ["jinete/models/objectives.py:HashCodeObjective", "jinete/loaders/formatters/hashcode.py:HashCodeLoaderFormatter", "jinete/models/stops.py:Stop.departure_time"]}
{"id": "C86", "title": "From a Hash Code file to a submission", "statement": "Solver.solve with FileLoader, the Hash Code formatters, GRASP or insertion, and FileStorer, given a file with Hash Code data, ends by writing a valid submission: one line per vehicle with the number of its rides and the rides, each ride of the file at most once; the rides are those of a planning that meets the routing constraints, and if they are delivered in time the contest gives at least the value reported. No other file is touched.", "quantifier": "every text of a well-shaped data set with at least one vehicle, settings, seeds, draws, set orders and state of objects and files", "why_tests_cant": "the whole program on all inputs: parsing, loading, optimisation loops, formatting and writing", "anchors": ["jinete/solvers.py:Solver.solve", "jinete/dispatchers/static.py:StaticDispatcher.run", "jinete/loaders/file.py:FileLoader", "jinete/storers/file.py:FileStorer.store", "jinete/storers/formatters/hashcode.py:HashCodeStorerFormatter.format"]}
{"id": "C87", "title": "The columnar report shows the schedule", "statement": "ColumnarStorerFormatter makes a report of every planning; for each route it shows the vehicle, each stop with its window, waiting, driving and loading time, departure and load, and each ride with its times of pickup and delivery, time on board, waiting, driving and loading time, all as they follow from the sequence of visits; it shows the coverage, the objective value and the verdict of the planning, and making it changes no attribute and no verdict.", "quantifier": "every planning of sound routes, job, objective and state of memoised values", "why_tests_cant": "the values are memoised at different moments and combined by walks along the linked stops; all schedules and memo states", "anchors": ["jinete/storers/formatters/columnar.py:ColumnarStorerFormatter.format", "jinete/models/planned_trips.py:PlannedTrip.waiting_time", "jinete/models/planned_trips.py:PlannedTrip.transit_time", "jinete/models/stops.py:Stop.identifier"]}
{"id": "C88", "title": "Reported times add up", "statement": "In the columnar report, the time on board of a ride is the sum of its waiting and its driving time, and each stop is left at the departure of the stop before plus driving, waiting and loading time.", "quantifier": "every schedule", "why_tests_cant": "depends on all sequences of visits between pickup and delivery", "anchors": ["jinete/storers/formatters/columnar.py:ColumnarStorerFormatter._planned_trip_to_str", "jinete/models/planned_trips.py:PlannedTrip.duration"]}
{"id": "C89", "title": "Reported numbers and lines can be read back", "statement": "Numbers in columns are right to the last digit shown (ties to even), so they keep their order; coordinates can be read back within 0.0005; the lines of rides and stops, split at white space, give label, value, label, value in a fixed order, however long the values are; cut at line ends, the text consists of a head of three lines, the lines of the routes and a foot of six lines.", "quantifier": "every number, position, row and report", "why_tests_cant": "all rationals, signs, widths and overflows of columns", "anchors": ["jinete/storers/formatters/columnar.py:ColumnarStorerFormatter", "jinete/models/positions.py:GeometricPosition.__str__"]}
{"id": "C90", "title": "From a Cordeau-Laporte file to the report", "statement": "Solver.solve with its default classes (FileLoader, InsertionAlgorithm, PromptStorer), given a file with Cordeau-Laporte data, returns a plan and prints, as one text, the columnar report of it: one route per declared vehicle, each request at most once, picked up and dropped where its rows say, not before they open, on board no longer than the header allows and without overloading the vehicle. No file is touched. The same holds with GRASP.", "quantifier": "every text of a well-shaped data set with durations and loads that are not negative, metric, settings, seeds, draws, set orders and state of objects and files", "why_tests_cant": "the whole program with its defaults on all inputs: parsing, loading, optimisation loops, formatting and printing", "anchors": ["jinete/solvers.py:Solver.__init__", "jinete/solvers.py:Solver.solve", "jinete/loaders/file.py:FileLoader.__init__", "jinete/storers/abc.py:Storer.__init__", "jinete/storers/prompt.py:PromptStorer.store"]}
{"id": "C91", "title": "Arguments of GRASP without influence", "statement": "Of the keyword arguments of GraspAlgorithm only first_solution_kwargs, local_search_kwargs, episodes, restart_mode, initial, fleet and job (and algorithm_cls and algorithms_cls, which are rejected) can change anything: neither seed nor no_improvement_threshold nor any other argument does. Of the arguments in local_search_kwargs, episodes, algorithm_cls and restart_mode have none either.", "quantifier": "every set of keyword arguments, problem, objective, state, depth of nesting and source of chance", "why_tests_cant": "equality of whole runs for all arguments, problems and draws", "anchors": ["jinete/algorithms/metaheuristics/grasp.py:GraspAlgorithm.__init__", "jinete/algorithms/metaheuristics/grasp.py:GraspAlgorithm._build_local_search_algorithm", "jinete/algorithms/metaheuristics/iterative.py:IterativeAlgorithm.__init__", "jinete/algorithms/metaheuristics/sequential.py:SequentialAlgorithm.__init__"]}
{"id": "C92", "title": "A local search strategy can be chosen for GRASP", "statement": "A strategy_cls given in local_search_kwargs of GraspAlgorithm, such as two-opt in examples/cordeau/example_two_opt.py, is the strategy of its local search, and the call returns a result.", "quantifier": "every problem, objective, state, chance, numbers of episodes, and class of local search strategies", "why_tests_cant": "all problems and executions of nested algorithms", "anchors": ["jinete/algorithms/metaheuristics/grasp.py:GraspAlgorithm._build_local_search_algorithm", "jinete/algorithms/metaheuristics/sequential.py:SequentialAlgorithm.__init__", "jinete/algorithms/heuristics/insertion/iterators/abc.py:InsertionIterator.__init__", "examples/cordeau/example_two_opt.py"]}
{"id": "C93", "title": "Keyword arguments reach what they are meant for", "statement": "InsertionAlgorithm and GraspAlgorithm, called with keyword arguments that ask for an insertion strategy, a criterion, sizes of neighbourhood and candidate list, feasibility, episodes and thresholds, or leave them out, run with exactly these choices and the documented defaults: no constructor in between rejects or loses one. So GRASP as called returns a planning for the problem (as in C83), and under the Dial-a-Ride and Hash Code objectives it ends if sampling does.", "quantifier": "every set of keyword arguments of this kind, with any further ones, problem, objective, state and source of chance", "why_tests_cant": "six levels of constructors passing on the rest of their keyword arguments, for all combinations and all executions", "anchors": ["jinete/algorithms/metaheuristics/grasp.py", "jinete/algorithms/metaheuristics/iterative.py", "jinete/algorithms/metaheuristics/sequential.py", "jinete/algorithms/heuristics/insertion/algorithm.py", "jinete/algorithms/heuristics/local_search/algorithm.py", "jinete/algorithms/heuristics/insertion/iterators/abc.py", "jinete/algorithms/heuristics/insertion/iterators/ranking.py", "jinete/models/criterions.py"]}
{"id": "C94", "title": "Without a candidate list seeds do not matter", "statement": "With randomized_size at most one, which is the default, the seed of InsertionAlgorithm has no influence, and what GraspAlgorithm draws has none: all its first solutions are built in the same way.", "quantifier": "every set of keyword arguments of this kind, problem, objective, state, seed and sequence of draws", "why_tests_cant": "equality of whole runs over all draws", "anchors": ["jinete/algorithms/heuristics/insertion/iterators/ranking.py:RankingInsertionIterator.__next__", "jinete/algorithms/heuristics/insertion/iterators/ranking.py:RankingInsertionIterator.__init__", "jinete/algorithms/metaheuristics/iterative.py:IterativeAlgorithm._optimize"]}
{"id": "C95", "title": "Unknown arguments of insertions are ignored", "statement": "InsertionAlgorithm reads fourteen keyword arguments; any other one, such as the misspelt criterion of examples/hashcode/example_insertion.py, changes nothing and raises nothing.", "quantifier": "every set of keyword arguments without another iterator, problem, objective, state and source of chance", "why_tests_cant": "unboundedly many names and values", "anchors": ["jinete/algorithms/heuristics/insertion/algorithm.py:InsertionAlgorithm.__init__", "jinete/algorithms/heuristics/insertion/iterators/abc.py:InsertionIterator._strategy", "jinete/algorithms/heuristics/insertion/iterators/abc.py:InsertionIterator._criterion", "examples/hashcode/example_insertion.py"]}
{"id": "C96", "title": "A plot shows the legs of all routes", "statement": "GraphPlotStorer makes a plot of any routes and trips without an error. Its edges are exactly the pairs of positions between which some route goes, its nodes exactly the ends of these legs and of the trips, each once; an edge has the colour of the last route with that leg, a node the label written last there.", "quantifier": "every state of objects, list of routes and list of trips", "why_tests_cant": "all routes, shared positions and orders", "anchors": ["jinete/storers/plots/graph.py:GraphPlotStorer._generate_nodes", "jinete/storers/plots/graph.py:GraphPlotStorer._generate_edges"]}
{"id": "C97", "title": "Routes and trips can be told apart in a plot", "statement": "In the plot of a plan each leg has the colour of its route and both ends of each trip have their labels, so that the tours can be read off.", "quantifier": "every problem, good plan and plot of it", "why_tests_cant": "all plans, including those with unused vehicles and shared places", "anchors": ["jinete/storers/plots/graph.py:GraphPlotStorer._generate_edges", "jinete/storers/plots/graph.py:GraphPlotStorer._generate_nodes"]}
{"id": "C98", "title": "A saved image shows the result", "statement": "GraphPlotStorer with a path saves an image of the plot of its result; without a path it shows the plot.", "quantifier": "every plot, path, state of files and current figure", "why_tests_cant": "sequences of storers in one process, with any figure left over", "anchors": ["jinete/storers/plots/graph.py:GraphPlotStorer.store"]}
{"id": "C99", "title": "The example programs print and show what they found", "statement": "examples/cordeau/example_insertion.py, on any sensible Cordeau-Laporte file with vehicles and requests, returns a plan that serves requests as the file asks, prints the report of it and shows its plot, in whatever order the set of storers is iterated, and touches no file; example_grasp.py does the same, or does not end and leaves everything as it was.", "quantifier": "every text of a well-shaped data set, metric, source of chance, order of the storers and state of objects, files and figures", "why_tests_cant": "whole programs on all inputs and all iteration orders of a set", "anchors": ["examples/cordeau/example_insertion.py", "examples/cordeau/example_grasp.py", "jinete/storers/sets.py:StorerSet.store"]}
{"id": "C100", "title": "The benchmark program writes beside the instance only", "statement": "examples/cordeau/benchmark_solve.py prints the report, writes the same report to the path of the instance with .output appended and the image to the path with .png appended, and changes no other file, in whatever order the set of storers is iterated; if it does not end, nothing is written.", "quantifier": "every text of a well-shaped data set, path, metric, source of chance, order of the storers and state of objects, files and figures", "why_tests_cant": "whole programs on all inputs and all iteration orders of a set", "anchors": ["examples/cordeau/benchmark_solve.py", "jinete/storers/sets.py:StorerSet.store", "jinete/storers/file.py:FileStorer.store", "jinete/storers/plots/graph.py:GraphPlotStorer.store"]}
{"id": "C101", "title": "The two-opt program returns a result", "statement": "examples/cordeau/example_two_opt.py returns a result, given the rounds its loops need.", "quantifier": "every text of a well-shaped data set, metric, source of chance and state", "why_tests_cant": "whole programs on all inputs", "anchors": ["examples/cordeau/example_two_opt.py", "jinete/algorithms/metaheuristics/grasp.py:GraspAlgorithm._build_local_search_algorithm"]}
{"id": "C102", "title": "The Hash Code program: default criterion, columnar report", "statement": "examples/hashcode/example_insertion.py, on any Hash Code file with vehicles and rides, returns a plan that meets all constraints and prints the columnar report of it. The plan is that of the insertion with the default criterion: the criterion the program names has no effect on anything, in any world, though naming it as the constructor does would make a difference.", "quantifier": "every text of a well-shaped data set, source of chance whose sampling ends, and state; for the criterion every file content whatsoever", "why_tests_cant": "equality of whole runs on all inputs, including those that fail", "anchors": ["examples/hashcode/example_insertion.py", "jinete/algorithms/heuristics/insertion/algorithm.py:InsertionAlgorithm.__init__"]}
{"id": "C103", "title": "The program with the linear model serves every request", "statement": "examples/cordeau/example_milp_three_index.py, on any sensible Cordeau-Laporte file for whose linear model the solver answers with a solution, returns a plan that serves every request exactly once, each route of which meets all routing constraints, closing times included; it prints a report of it that says so and shows its plot, in whatever order the sets are iterated, and touches no file. If the answer is out of bounds it raises and leaves everything outside as it was.", "quantifier": "every text of a well-shaped data set, metric, order of the sets of vehicles, trips and storers, answer of the solver, and state of objects, files and figures", "why_tests_cant": "whole programs on all inputs, answers and iteration orders", "anchors": ["examples/cordeau/example_milp_three_index.py", "jinete/algorithms/exacts/milp.py:MilpAlgorithm", "jinete/algorithms/exacts/models/three_index.py:ThreeIndexLinearModel.solve"]}
{"id": "C104", "title": "Texts of fleets and jobs tell their identifiers", "statement": "The text of a fleet (job) lists the identifiers of its vehicles (trips) as Python string literals, whatever characters they contain, and from the text exactly these identifiers can be read, in order.", "quantifier": "every list of identifiers without unprintable characters", "why_tests_cant": "all strings, including quotes, commas, backslashes and parentheses", "anchors": ["jinete/models/abc.py:Model.__repr__", "jinete/models/vehicles.py:Fleet.__iter__", "jinete/models/jobs.py:Job.__iter__"]}
{"id": "C105", "title": "A route's identifier identifies it", "statement": "Route.identifier tells which trips are picked up and dropped, visit by visit, and different routes of a planning have different identifiers.", "quantifier": "every two routes, in any heaps, and every naming of trips", "why_tests_cant": "all itineraries and names", "anchors": ["jinete/models/routes.py:Route.identifier", "jinete/models/stops.py:Stop.identifier", "jinete/models/plannings.py:Planning.__iter__"]}
{"id": "C106", "title": "Logging has no influence", "statement": "Objective.optimization_function, which makes a message with the text of its argument at every call, returns or raises what the computation alone would, and leaves the same objects.", "quantifier": "every objective, argument and state of the objects", "why_tests_cant": "all states, including incomplete objects", "anchors": ["jinete/models/objectives.py:Objective.optimization_function", "jinete/models/planned_trips.py:PlannedTrip.__iter__", "jinete/models/abc.py:Model.__repr__"]}
{"id": "C107", "title": "The dataset reader shows the instance", "statement": "examples/read_dataset.py prints the surface, the vehicles and the trips of the instance it reads.", "quantifier": "every text of a well-shaped data set, order of the sets and state", "why_tests_cant": "whole programs on all inputs", "anchors": ["examples/read_dataset.py", "jinete/loaders/file.py:FileLoader", "jinete/loaders/formatters/cordeau_laporte.py:CordeauLaporteLoaderFormatter"]}
{"id": "C108", "title": "Texts of vehicles, trips and routes tell their data", "statement": "From the text of a vehicle (trip) its identifier, origin, destination, capacity, maximum time (and bonus) can be read, exactly, whatever characters the identifier contains; from the text of a route the identifier of the vehicle and the names of the stops.", "quantifier": "every vehicle, trip and route whose numbers str writes out, every identifier; for routes, names of trips without equality sign", "why_tests_cant": "all strings as identifiers, including those that look like other fields", "anchors": ["jinete/models/abc.py:Model.__repr__", "jinete/models/vehicles.py:Vehicle.__iter__", "jinete/models/trips.py:Trip.__iter__", "jinete/models/routes.py:Route.__iter__", "jinete/models/services.py:Service.__iter__"]}
{"id": "C109", "title": "The text of a service tells its data", "statement": "Services with the same text have the same position and times.", "quantifier": "every service whose numbers str writes out", "why_tests_cant": "all positions and times", "anchors": ["jinete/models/services.py:Service.__iter__", "jinete/models/positions.py:GeometricPosition.__str__", "jinete/models/abc.py:Model.__repr__"]}
{"id": "C110", "title": "Equal services have the same data", "statement": "Two positions (services) are equal if and only if they have the same coordinates (position and times), and equal ones have equal hashes.", "quantifier": "every two positions and services", "why_tests_cant": "a collision of hashes has to be found among all numbers", "anchors": ["jinete/models/services.py:Service.__eq__", "jinete/models/services.py:Service.__hash__", "jinete/models/positions.py:GeometricPosition.__eq__", "jinete/models/positions.py:GeometricPosition.__hash__"]}
{"id": "C111", "title": "The benchmark leaves a log of every instance", "statement": "After examples/cordeau/benchmark_launch.py every instance has a log with what its process has written, and no other file was changed by the launcher.", "quantifier": "every set of instances, behaviour and end of the processes, and interleaving", "why_tests_cant": "all interleavings of the processes and all ways they may end", "anchors": ["examples/cordeau/benchmark_launch.py"]}
{"id": "C112", "title": "Routes of any length can be timed", "statement": "However long a well-formed route is, the time at which its last stop is left can be computed, after the memoised times were forgotten too.", "quantifier": "every route and every limit on the depth of recursion", "why_tests_cant": "the length at which the recursion gets too deep depends on what is memoised", "anchors": ["jinete/models/stops.py:Stop.departure_time", "jinete/models/stops.py:Stop.arrival_time", "jinete/models/routes.py:Route.last_departure_time", "jinete/models/routes.py:Route.flush"]}
{"id": "C113", "title": "Small jobs are planned without sampling", "statement": "If a route with two stops per trip of the job, and two more, has at most as many pairs of positions as are to be sampled (128 by default: jobs of up to seven trips), insertion with the sampling strategy, local search with reallocation and GRASP do what they would do if all pairs were tried; their outcome does not depend on the numbers drawn for sampling, and sampling cannot keep them from ending.", "quantifier": "every environment, fleet, small job, starting planning, order of sets, candidate choices and every stream of random numbers, even of numbers out of range", "why_tests_cant": "equality of whole runs over all random streams", "anchors": ["jinete/utils/random.py:sample_index_pairs", "jinete/algorithms/heuristics/insertion/strategies/sampling.py:SamplingInsertionStrategy.compute", "jinete/algorithms/heuristics/local_search/strategies/plannings/reallocation.py:ReallocationLocalSearchStrategy._improve", "jinete/algorithms/metaheuristics/grasp.py:GraspAlgorithm"]}
{"id": "C114", "title": "Improving a planning in place leaves its routes usable", "statement": "With copying turned off, reallocation on sound routes of different vehicles succeeds, keeps every route the planning had sound with its vehicle, stops, trips, value and all times except at its first stop, and either keeps the very planning or moves one trip and strictly improves the objective; two-opt leaves all former routes alone. Neither exception can be dropped: reallocation can change when an unchanged route leaves the depot, and one-shift changes the given route itself.", "quantifier": "every environment with nonnegative travel times and durations, planning with at most one trip per stop, state, sampling of positions and objective", "why_tests_cant": "objects shared between the old result and the candidates", "anchors": ["jinete/algorithms/heuristics/local_search/strategies/abc.py:LocalSearchStrategy.__init__", "jinete/algorithms/heuristics/local_search/strategies/plannings/reallocation.py:ReallocationLocalSearchStrategy._improve", "jinete/algorithms/heuristics/local_search/strategies/routes/two_opt.py:TwoOPTLocalSearchStrategy._improve"]}
{"id": "C115", "title": "A local search whose strategy hands back the result it was given never returns", "statement": "If every pass of the strategy yields the very result object it was given, the count of passes without improvement is reset each time, so the search returns for no number of rounds; with the strategies that improve in place this always happens, and with reallocation no pass raises an exception either.", "quantifier": "every strategy, objective, initial result, state, positive threshold and number of rounds", "why_tests_cant": "non-termination cannot be observed by a test", "anchors": ["jinete/algorithms/heuristics/local_search/algorithm.py:LocalSearchAlgorithm._optimize", "jinete/algorithms/heuristics/local_search/strategies/abc.py:LocalSearchStrategy.improve"]}
{"id": "C116", "title": "Rounded arithmetic cannot make times run backwards or trip an assertion", "statement": "However sums are rounded, as long as rounding is monotone, keeps zero and numbers already rounded, on every well-formed route the computed arrival, start and departure times do not decrease along the route, waiting times are not negative, no assertion in the waiting time, the load or the verdict of a planned trip fails, and a verdict is returned.", "quantifier": "every rounding function with these properties, distances that are not negative, environment and well-formed route of any length", "why_tests_cant": "a test sees one number format and the routes it happens to build", "anchors": ["jinete/models/stops.py:Stop.waiting_time", "jinete/models/planned_trips.py:PlannedTrip.feasible", "jinete/models/routes.py:Route.feasible"]}
{"id": "C117", "title": "The verdict computed with rounding is the exact one up to an explicit slack", "statement": "If every sum is off by at most eps and every distance by at most delta, the verdict on a route of n stops lies between those of the exact constraints with the tolerance ERROR_BOUND decreased and increased by (2n+3)(2 eps + delta); without rounding it is the exact verdict.", "quantifier": "every rounding, error bounds, problem within range and well-formed route of any length", "why_tests_cant": "bounds the accumulated error over all routes and all data", "anchors": ["jinete/models/constants.py:ERROR_BOUND", "jinete/models/stops.py:Stop.feasible", "jinete/models/routes.py:Route.feasible"]}
{"id": "C118", "title": "Verdicts in double precision", "statement": "Rounding to doubles gives a nearest double, is monotone and odd, keeps doubles and has relative error at most 2^-53. With exact distances a route is accepted only if it meets the exact constraints up to twice ERROR_BOUND and whenever it meets them without tolerance; on problems in integers with Manhattan distances the verdict is exactly that of the exact constraints. On other problems the verdicts can differ (a witness is part of the claim).", "quantifier": "every rational number; every problem and well-formed route of n stops with numbers below H/8 and 1000(2n+3)H at most 2^52", "why_tests_cant": "all doubles and all routes", "anchors": ["jinete/models/constants.py:DistanceMetric._manhattan_distance", "jinete/models/constants.py:ERROR_BOUND", "jinete/models/routes.py:Route.feasible"]}
{"id": "C119", "title": "The answer to a question does not depend on what was asked before", "statement": "For routes whose stops are linked first to last and whose planned trips refer to their own stops: any time, load, verdict, score, objective value or ranking asked about them is answered, with the same value or the same exception, as if it had been asked first, whatever else was asked about them before; also when memoised times, loads and verdicts are out of date.", "quantifier": "every environment, state (also with inconsistent caches), list of earlier questions and question", "why_tests_cant": "all orders of evaluation of all lazily cached properties in all states", "anchors": ["jinete/models/stops.py:Stop", "jinete/models/planned_trips.py:PlannedTrip", "jinete/models/routes.py:Route", "jinete/models/objectives.py:Objective", "jinete/models/criterions.py:RouteCriterion"]}
{"id": "C120", "title": "One-shift returns", "statement": "Applied to well-formed routes of different vehicles whose caches are right, one-shift raises nothing, with and without copying the routes first, whatever the objective: although undone flips leave stale times behind, no assertion about times, links or loads fails. As stated it is false for a route of which loads are cached and verdicts of stops are not (a witness raises AssertionError); it holds when every stop that serves a trip was judged before or no load is cached.", "quantifier": "every environment, state, set of routes, order of the set and objective", "why_tests_cant": "all routes, times and all sequences of accepted and undone flips over them; the failing order of questions is not one a test would come across", "anchors": ["jinete/algorithms/heuristics/local_search/strategies/routes/one_shift.py:OneShiftLocalSearchStrategy._improve", "jinete/algorithms/heuristics/local_search/strategies/routes/one_shift.py:OneShiftLocalSearchStrategy._flip", "jinete/models/stops.py:Stop.capacity"]}
{"id": "C121", "title": "Euclidean distances in double precision", "statement": "With every operation of the Euclidean distance rounded to doubles (correctly rounded differences, sums and root; squares off by at most two roundings), the computed distance is a double, never negative, zero exactly where the distance is, the same in both directions, and off by at most (n+6) 2^-53 of the exact real distance for points of n coordinates; the root is a nearest double to the exact root.", "quantifier": "all points with rational coordinates, of any dimension up to 2^52, and every squaring function within the bound", "why_tests_cant": "all pairs of doubles", "anchors": ["jinete/models/constants.py:DistanceMetric._euclidean_distance"]}
{"id": "C122", "title": "Computed Euclidean distances obey the triangle inequality", "statement": "In doubles a detour never is shorter than the direct way. As stated it is false: from (0,0) to (4,4) the way over (1,1) is computed to be shorter, also after the sum is rounded. It holds up to a factor of 1 + 4(n+6) 2^-53.", "quantifier": "all triples of points of equal dimension n, and every squaring function within the bound of C121", "why_tests_cant": "all triples of points; the violation shows in the last digit only", "anchors": ["jinete/models/constants.py:DistanceMetric._euclidean_distance"]}
{"id": "C123", "title": "Verdicts of routes in the plane, all in double precision", "statement": "With times and Euclidean distances both computed in doubles, Route.feasible returns a verdict on every well-formed route in range; a route is accepted only if it meets the constraints of the problem in exact arithmetic with real Euclidean distances (up to H 2^-53) with twice ERROR_BOUND as tolerance, and every route that meets them without tolerance is accepted.", "quantifier": "every problem in the plane and well-formed route of n stops with numbers below H/8 and 1000(2n+3)H at most 2^50", "why_tests_cant": "all routes over all positions", "anchors": ["jinete/models/constants.py:DistanceMetric._euclidean_distance", "jinete/models/constants.py:ERROR_BOUND", "jinete/models/routes.py:Route.feasible"]}
{"id": "C124", "title": "A feasible route is feasible at every stop", "statement": "For a vehicle with a capacity that is not negative, Route.feasible holds exactly when Route.feasible_stops holds (every stop, depots and idle stops included, serves its trips in time and within capacity) together with the constraints of the vehicle and the ride limits; feasible itself only asks the stops of planned trips. With a negative capacity the two differ (a witness is part of the claim).", "quantifier": "every environment with nonnegative travel times, durations and loads, well-formed route of any length and state with correct caches", "why_tests_cant": "all routes, loads and schedules", "anchors": ["jinete/models/routes.py:Route.feasible_stops", "jinete/models/routes.py:Route.feasible", "jinete/models/stops.py:Stop.feasible"]}
{"id": "C125", "title": "Pickups, deliveries and the current stop of a route", "statement": "On every well-formed route the deliveries are the pickups in some order, each planned trip once; loaded_trips_count counts the trips with passengers; all_previous_pickups at a stop are the planned trips picked up before it, the latest stop first, and contain everyone delivered there; the current stop is the last but one, its times are those of the schedule, and the last stop is reached straight from it; the first and last departure are those of the schedule.", "quantifier": "every environment, well-formed route of any length and state with correct caches", "why_tests_cant": "all routes", "anchors": ["jinete/models/routes.py:Route.deliveries", "jinete/models/routes.py:Route.loaded_trips_count", "jinete/models/routes.py:Route.current_stop", "jinete/models/stops.py:Stop.all_previous_pickups"]}
{"id": "C126", "title": "The value of a planning does not depend on the order of its routes", "statement": "DialARideObjective adds up the routes of a planning in the order in which a set is iterated. In doubles the claim is false: (0.1+0.2)+0.3 and (0.3+0.2)+0.1 differ. The number of trips is always exact; the length is within a relative error of 2(n+R) 2^-53 + 2w of the real length in every order (R routes of at most n stops, distances within w), and exact if the distances are whole numbers and the sum is below 2^53.", "quantifier": "every environment, chained routes of any number, every order, every distance function within w (C121 gives w = 8 2^-53 in the plane)", "why_tests_cant": "the order of a set depends on addresses, so a test sees one order; differences are in the last digit", "anchors": ["jinete/models/objectives.py:Objective._planning_optimization_function", "jinete/models/objectives.py:DialARideObjective._route_optimization_function", "jinete/models/routes.py:Route.distance"]}
{"id": "C127", "title": "The best planning, chosen by values in doubles", "statement": "Objective.best on plannings with values in doubles returns one that serves as many trips as any of them and whose tours are at most 1 + 4e times as long as those of any other that serves as many, e being the relative error of C126. An example shows that the longer of two plannings can be chosen.", "quantifier": "every nonempty list of plannings of chained routes with e at most 1/2", "why_tests_cant": "all lists of plannings and all distances", "anchors": ["jinete/models/objectives.py:Objective.best", "jinete/models/objectives.py:Objective._planning_optimization_function"]}
{"id": "C128", "title": "What a route answers depends on its itinerary only", "statement": "Two routes of equal vehicles whose stops have, position by position, the same place, requested earliest time, pickups and deliveries give the same answers: feasible, the score of every criterion, the value of every objective, and at each stop arrival, departure and load; it does not matter in which heap they live, in which order the sets of planned trips are iterated, and which answers were memoised before (verdicts apart). Plannings of such routes have the same value in whichever order the routes are iterated.", "quantifier": "every environment with nonnegative travel times, durations and loads, all heaps, all pairs of well-formed routes with the same visits", "why_tests_cant": "the iteration order of a set of objects depends on addresses; a test sees the order of one run", "anchors": ["jinete/models/routes.py:Route.feasible", "jinete/models/stops.py:Stop.pickup_planned_trips", "jinete/models/criterions.py:RouteCriterion.scoring", "jinete/models/objectives.py:Objective.optimization_function"]}
{"id": "C129", "title": "The insertion algorithm does not depend on the iteration order of sets", "statement": "Two runs of InsertionAlgorithm with randomized_size 1 on the same problem, with different iteration orders of the sets of trips, vehicles and routes, give plannings of the same value. This is false: ties between candidates are resolved by order, and a later trip may fit after one of them only (a witness is given). What holds: whenever the candidates of two runs are the same up to order, next returns routes with the same verdict and the same score.", "quantifier": "all settings, orders and problems; all states of all runs", "why_tests_cant": "the order of a set of objects depends on addresses, so a test of one run cannot tell", "anchors": ["jinete/algorithms/heuristics/insertion/algorithm.py:InsertionAlgorithm._optimize", "jinete/algorithms/heuristics/insertion/iterators/ranking.py:RankingInsertionIterator.__next__"]}
{"id": "C130", "title": "More episodes and more patience never give a worse result", "statement": "Run the iterative algorithm, or GRASP with its default algorithms and any objective, twice from the same state with the same draws, the second time with at least as many episodes: if the second run returns and the first has an episode, the first returns too, and the planning of the second is worth at least as much. The same holds for a local search that gives up after at least as many rounds without improvement. (Not so for the number of first solutions per episode of GRASP: a counterexample is given.)", "quantifier": "all inner algorithms that keep existing results intact, all seeds, states, objectives and problems; all numbers of episodes and thresholds", "why_tests_cant": "a test compares two numbers of episodes on one problem with one seed", "anchors": ["jinete/algorithms/metaheuristics/iterative.py:IterativeAlgorithm._optimize", "jinete/algorithms/metaheuristics/grasp.py:GraspAlgorithm._optimize", "jinete/algorithms/heuristics/local_search/algorithm.py:LocalSearchAlgorithm._optimize"]}
{"id": "C131", "title": "Hash Code and Taxi-Sharing values in doubles", "statement": "HashCodeObjective compares origin_earliest and pickup_time with == to decide on the bonus, and TaxiSharingObjective subtracts two floats. For problems whose numbers are doubles (Manhattan distances) the values of plannings are claimed to be those of the schedule. This is false: a vehicle that is late by 2^-53 is on time in doubles and gains the bonus, and the time on board is rounded too. For problems in integers that are small compared to 2^53 both values are exact, whatever the order of the routes, and exactly the rides that leave at their earliest time gain the bonus.", "quantifier": "every environment with nonnegative travel times, durations and loads, every list of well-formed routes of any length", "why_tests_cant": "a test with whole numbers never sees the rounding; the values are in the last digit", "anchors": ["jinete/models/objectives.py:HashCodeObjective._planned_trip_optimization_function", "jinete/models/objectives.py:TaxiSharingObjective._planned_trip_optimization_function", "jinete/models/planned_trips.py:PlannedTrip.duration"]}
{"id": "C132", "title": "A rejected route cannot be driven at other times either", "statement": "Route.feasible looks at one schedule, each visit as early as possible. Claim: if it rejects a route without requested starts, then no timing at all (waiting anywhere, leaving later) lets the vehicle make these visits in this order within all constraints. This is false: leaving the depot later shortens rides and tours that wait (two witnesses, one with a ride limit and one with a shift limit). Proved: no timing is earlier than the schedule at any visit; accepted routes can be driven at the times of the schedule; and the claim itself, also with requested starts (for the timings that start no service before them), whenever the schedule does not wait during rides of limited length, nor after the first stop if the duration of the tour is limited, so in particular without such limits.", "quantifier": "every environment with nonnegative travel times, durations and loads, well-formed route of any length and state with correct caches; all timings", "why_tests_cant": "the timings of a route form a continuum; a test evaluates one", "anchors": ["jinete/models/routes.py:Route.feasible", "jinete/models/stops.py:Stop.arrival_time", "jinete/models/stops.py:Stop.starting_time", "jinete/models/planned_trips.py:PlannedTrip.feasible"]}
{"id": "C133", "title": "What is left of a route after removing a trip", "statement": "Claim: if the constraints hold for a route, they hold after Route.remove_trip of one of its trips. This is false even in a metric space: without an earlier trip a passenger is picked up earlier and waits on board for a stop that opens later, so their ride takes too long (a witness is given; a second one shows that the triangle inequality is needed). Proved, if no detour among the places of the route saves time: remove_trip raises nothing and takes away exactly the two visits of the trip; the remaining visits can be made at their old times, as the restriction of every feasible timing is feasible again; the new schedule reaches, serves and leaves none of them later; the vehicle drives no further; and the constraints hold for the new schedule whenever it does not wait during rides of limited length, nor after the first stop if the duration of the tour is limited.", "quantifier": "every environment with nonnegative travel times, durations and loads, well-formed route of any length with one trip per stop, trip of the route and state with correct caches; all timings", "why_tests_cant": "a test removes one trip from one route", "anchors": ["jinete/models/routes.py:Route.remove_trip", "jinete/models/routes.py:Route.feasible", "jinete/algorithms/heuristics/local_search/strategies/plannings/reallocation.py:ReallocationLocalSearchStrategy._improve"]}
{"id": "C134", "title": "Any selection of the trips of a route, and trips an empty vehicle cannot serve", "statement": "If no detour among the places of a route saves time, then whoever can serve the trips of the route can serve any selection of them: every feasible timing, restricted to the depots and to the visits of the selected trips, is feasible, with ride limits, shift limits and requested starts or without. In particular a trip of a route can be served by its vehicle alone. So without such limits, one insertion rejected by InsertionStrategy.compute in a route that holds nothing but the depots shows that no route of the vehicle, in any state and with any timing, ever serves the trip.", "quantifier": "every environment with nonnegative travel times, durations and loads, well-formed route of any length with one trip per stop, timing of it and selection of its trips; every reachable state", "why_tests_cant": "all subsets of trips and all timings of all routes containing a trip", "anchors": ["jinete/models/routes.py:Route.feasible", "jinete/algorithms/heuristics/insertion/strategies/abc.py:InsertionStrategy.compute", "jinete/models/planned_trips.py:PlannedTrip.feasible"]}
{"id": "C135", "title": "With enough vehicles of a kind the insertion algorithm serves as many trips as possible", "statement": "The insertion algorithm on a new planning with any strategy (tail, intensive, or sampling one pair of positions at least), a neighbourhood not smaller than the job, no ride limits, and either only_feasible or randomized_size = 1: (a) without shift limits, if a route of the result serves nobody, some idle vehicle can serve none of the trips left out, on no route in any state and with any timing, as long as no detour saves time; (b) with at least as many vehicles as trips, all alike, no trip left out can be served by any route of the fleet, and no planning of the fleet serves more trips of the job; (c) with at least as many vehicles as trips, each of which can serve each trip of the job alone, all trips are served, also with shift limits and detours that save time. (With different vehicles (b) fails: only one idle vehicle is ever tried, see C34.)", "quantifier": "every environment with nonnegative travel times, durations and loads, all fleets, jobs, criteria, iteration orders and draws; all competing plannings and timings", "why_tests_cant": "a test compares with the plannings it knows; the competing plannings are unbounded in number and their timings form a continuum", "anchors": ["jinete/algorithms/heuristics/insertion/iterators/abc.py:InsertionIterator._attractive_routes", "jinete/algorithms/heuristics/insertion/algorithm.py:InsertionAlgorithm._optimize", "jinete/algorithms/heuristics/insertion/strategies/intensive.py:IntensiveInsertionStrategy.compute"]}
{"id": "C136", "title": "The same problem elsewhere and later", "statement": "Move every place by a map that keeps travel times (a translation, say), and put every clock forward by the same amount. A route with the same visits, carried over, gets the same verdict, the same value from every objective and the same score from every criterion but the last departure; its stops report the same loads, and arrival and departure times that are later by exactly that amount. Claim for insertions: compute accepts an insertion if and only if it accepts it elsewhere and later. This is false: _improve_ride_times assigns waiting_time, a duration, to the starting time of the depot, so a vehicle whose shift is limited is sent off in time in the morning only (a witness is given). Proved without ride limits: insertions are accepted alike if the clock stays as it is, or if the shift is not limited.", "quantifier": "all pairs of such problems with nonnegative travel times, durations, loads and depot opening times; all well-formed routes of any length in states with correct caches; every reachable state for insertions", "why_tests_cant": "a relation between the results on infinitely many pairs of problems", "anchors": ["jinete/models/routes.py:Route.feasible", "jinete/models/stops.py:Stop.starting_time", "jinete/models/trips.py:Trip.origin_earliest", "jinete/algorithms/heuristics/insertion/strategies/abc.py:InsertionStrategy._improve_ride_times"]}
{"id": "C137", "title": "What can be done in a problem can be done in an easier one", "statement": "Relax a problem: shorter travel times, wider windows, longer rides and tours, larger vehicles. Claim: a route accepted before is accepted with the same visits in the easier problem. This is false: allowing one passenger a longer ride moves their pickup ahead (Trip.origin_earliest depends on the ride limit), the vehicle is early, and the next passenger waits on board beyond their own limit (a witness is given). Proved: every feasible timing of the visits remains feasible, the new schedule reaches, serves and leaves no visit later, and the claim itself whenever the new schedule does not wait during rides of limited length, nor after the first stop if the duration of the tour is limited, so in particular without such limits.", "quantifier": "all pairs of problems, the second easier than the first, with nonnegative travel times, durations and loads; well-formed routes of any length in states with correct caches; all timings", "why_tests_cant": "a relation between the results on infinitely many pairs of problems", "anchors": ["jinete/models/routes.py:Route.feasible", "jinete/models/trips.py:Trip.origin_earliest", "jinete/models/planned_trips.py:PlannedTrip.feasible"]}
{"id": "C138", "title": "With a vehicle for each ride, the rides submitted are those that allow a round trip", "statement": "Solver.solve on a Hash Code file with at least as many vehicles as rides, with the insertion algorithm trying all trips with any strategy (tail, intensive, or sampling one pair of positions at least, with sampling that ends), writes a submission with exactly those rides, each once, which a vehicle that starts at (0, 0) at time 0 can start by the time given as their latest finish and then be back at (0, 0) by the end of the simulation. With fewer vehicles, other settings, or GRASP, no other rides are ever submitted. These are not the rides of the contest, where vehicles need not return: a file is given with one vehicle and one ride worth seven points which is not submitted, whatever the settings.", "quantifier": "every file with well-shaped Hash Code data with 0 < f and n <= f vehicles, all settings, orders, draws and states of objects and files", "why_tests_cant": "the whole program on all inputs, with an exact description of its output", "anchors": ["jinete/solvers.py:Solver.solve", "jinete/loaders/formatters/hashcode.py:HashCodeLoaderFormatter.fleet", "jinete/loaders/formatters/hashcode.py:HashCodeLoaderFormatter._build_trip", "jinete/algorithms/heuristics/insertion/algorithm.py:InsertionAlgorithm._optimize", "jinete/models/routes.py:Route.feasible"]}
{"id": "C139", "title": "GRASP loses no trip that its insertions serve", "statement": "If every insertion from nothing serves a trip, whatever the seed and the state of the objects, then so does the result of GRASP, under every objective. Hence, with at least as many alike vehicles as trips, no limits on rides and tours, and insertions that try all trips, with any strategy, no planning of the job serves more trips than the result of GRASP, nor any trip it does not serve; and if every vehicle can serve every trip alone, GRASP serves all. From file to file: solving a Hash Code file with at least as many vehicles as rides by GRASP either runs out of rounds, and then writes nothing, or submits exactly the rides that allow a round trip, each once.", "quantifier": "all problems with nonnegative travel times, durations and loads, settings as stated, all seeds, draws, orders, episodes, thresholds and states; every well-shaped Hash Code file with 0 < f and n <= f", "why_tests_cant": "the composition of iterated, sequential, insertion and local search algorithms over all random choices, against all plannings", "anchors": ["jinete/algorithms/metaheuristics/grasp.py:GraspAlgorithm", "jinete/algorithms/heuristics/local_search/algorithm.py:LocalSearchAlgorithm._optimize", "jinete/algorithms/metaheuristics/iterative.py:IterativeAlgorithm._optimize", "jinete/algorithms/metaheuristics/sequential.py:SequentialAlgorithm._optimize", "jinete/solvers.py:Solver.solve"]}
{"id": "C140", "title": "Lines of a submission bring their vehicles home; without deadlines none that do so score more", "statement": "At the contest, a vehicle that drives the rides of a line written for a Hash Code file, in order, starts each ride by the time given as its latest finish and can be back at (0, 0) by the end of the simulation, whatever algorithm made the plan. If all numbers are whole and all rides may be finished until the end, every ride submitted scores its distance. With a vehicle for each ride, by insertion (trying all trips, with any strategy) or by GRASP with such insertions when it returns, no use of any number of vehicles that all return in time scores more than the submission and the bonuses of its own rides, hence no more at all when there is no bonus. At the contest vehicles need not return: a file is given for which another submission scores more, whatever the settings.", "quantifier": "every file with well-shaped Hash Code data (whole numbers and latest finishes not before the end for the scores; 0 < f and n <= f for the comparison), all settings as stated, orders, draws, states of objects and files; all sets of lines", "why_tests_cant": "compares the output of the whole program on every input with all other submissions, scored by the rules of the contest", "anchors": ["jinete/solvers.py:Solver.solve", "jinete/loaders/formatters/hashcode.py:HashCodeLoaderFormatter.fleet", "jinete/models/objectives.py:HashCodeObjective", "jinete/storers/formatters/hashcode.py:HashCodeStorerFormatter.format", "jinete/algorithms/heuristics/insertion/algorithm.py:InsertionAlgorithm._optimize"]}
{"id": "C141", "title": "With enough vehicles of a kind, the trips served are those that one of them can serve alone", "statement": "Claim: a further vehicle in the fleet never leaves fewer trips served. This is false: one vehicle serves the only trip; with a further vehicle that is too small for it the trip is left out, since of the vehicles without trips only the first is tried (a witness is given). Proved for vehicles of one kind, at least as many as trips, without limits on rides and tours, where no detour saves time: a trip is served if and only if it is in the job and a vehicle of the fleet can serve it alone. (Vehicles may differ as long as each trip can be served alone by all of them or by none.) Hence insertion and GRASP, with any criterion, objective, draws, orders and number of vehicles of that kind that is not below the number of trips, all serve the same trips, with any strategy (tail, intensive, sampling), as long as all trips are considered.", "quantifier": "all problems with nonnegative travel times, durations and loads as stated; both algorithms, all settings as stated, all seeds, draws, orders, episodes and states", "why_tests_cant": "a relation between runs of different algorithms with different fleets on every problem, with an exact description of the result", "anchors": ["jinete/algorithms/heuristics/insertion/iterators/abc.py:InsertionIterator._attractive_routes", "jinete/algorithms/heuristics/insertion/algorithm.py:InsertionAlgorithm._optimize", "jinete/algorithms/metaheuristics/grasp.py:GraspAlgorithm", "jinete/models/routes.py:Route.feasible"]}
{"id": "C142", "title": "What a result says about itself, and its coverage rate", "statement": "Of a plan made by any of the algorithms, Planning.vehicles yields each vehicle of the fleet once, Planning.planned_trips no object twice, and Planning.trips exactly the trips its routes serve, all of the job, none twice; each planned trip is picked up and dropped on the route that holds it. With vehicles of one kind, at least as many as trips, without limits on rides and tours, where no detour saves time, and insertions that consider all trips, with any strategy, Result.coverage_rate of insertion and of GRASP is exactly the share of the job that has passengers and that a vehicle of the fleet can serve alone. So it does not depend on algorithm, criterion, objective, draws, orders or number of vehicles, and no plan has a higher one.", "quantifier": "all good plans; all problems with nonnegative travel times, durations and loads as stated; both algorithms, all settings as stated, all seeds, draws, orders, episodes and states", "why_tests_cant": "an exact value for the results of different algorithms on every problem, compared with all plans", "anchors": ["jinete/models/plannings.py:Planning.vehicles", "jinete/models/plannings.py:Planning.planned_trips", "jinete/models/plannings.py:Planning.trips", "jinete/models/results.py:Result.coverage_rate", "jinete/models/results.py:Result.completed_trips", "jinete/algorithms/metaheuristics/grasp.py:GraspAlgorithm"]}
{"id": "C143", "title": "Which objective values are best with enough vehicles of a kind", "statement": "Vehicles of one kind, at least as many as trips, no limits on rides and tours, no detour that saves time, insertions that consider all trips, with any strategy. Claim: no plan has a larger value of the Hash Code objective than the result of insertion or of GRASP. This is false with bonuses: for two vehicles and two trips, the criterion for the longest useful time gives both trips to one vehicle, which forgoes a bonus that two vehicles earn (a witness is given). Proved: no plan exceeds the result by more than the bonuses of the trips served; without bonuses the result is optimal, and its value is the total distance of the trips with passengers it serves. For the Dial-a-Ride objective, the first component (the number of trips, compared first) is the largest of all plans.", "quantifier": "all problems with nonnegative travel times, durations, loads and bonuses as stated; both algorithms, all settings as stated, seeds, draws, orders, episodes and states; all good plans as competitors", "why_tests_cant": "optimality over all plans of every problem", "anchors": ["jinete/models/objectives.py:HashCodeObjective", "jinete/models/objectives.py:DialARideObjective", "jinete/algorithms/heuristics/insertion/algorithm.py:InsertionAlgorithm._optimize", "jinete/algorithms/metaheuristics/grasp.py:GraspAlgorithm", "jinete/models/criterions.py:LongestUtilTimeRouteCriterion"]}
{"id": "C144", "title": "Inserting again", "statement": "Claim: insertion that starts from the result of insertion serves no more trips. This is false: of the vehicles without trips only one is tried; a second run may try another one and serve a trip that the first left out (a witness is given). Proved for vehicles of one kind, at least as many as trips, no limits on rides and tours, no detour that saves time, and a first solution made by insertion or GRASP considering all trips, with any strategy: insertion with any settings whatsoever (criterion, strategy, size of neighbourhood, randomised choice) that starts from this result returns the same vehicles with the same visits in the same order.", "quantifier": "all problems with nonnegative travel times, durations and loads as stated, all settings of both runs, draws, orders, states", "why_tests_cant": "the composition of two runs of search algorithms on every problem, with all random choices in both", "anchors": ["jinete/algorithms/heuristics/insertion/iterators/abc.py:InsertionIterator.__init__", "jinete/algorithms/heuristics/insertion/iterators/abc.py:InsertionIterator._attractive_routes", "jinete/algorithms/heuristics/insertion/algorithm.py:InsertionAlgorithm._optimize", "jinete/algorithms/metaheuristics/grasp.py:GraspAlgorithm"]}
{"id": "C145", "title": "Further trips in the job", "statement": "Claim: further trips in the job never leave fewer trips served. This is false: one vehicle serves two trips; with a third one that makes the shortest first tour, it serves that one and no other (a witness is given). Proved for vehicles of one kind, at least as many as trips, no limits on rides and tours, no detour that saves time, insertion or GRASP considering all trips, with any strategy: the trips of the smaller job that are served are exactly those that are served when further trips are in the job, whatever algorithms and settings are used for the two jobs. So no trip is lost to another one.", "quantifier": "all problems with nonnegative travel times, durations and loads as stated, all pairs of jobs and fleets as stated, both algorithms, all settings as stated, seeds, draws, orders, states", "why_tests_cant": "a relation between runs on infinitely many pairs of problems", "anchors": ["jinete/algorithms/heuristics/insertion/iterators/ranking.py:RankingInsertionIterator", "jinete/algorithms/heuristics/insertion/algorithm.py:InsertionAlgorithm._optimize", "jinete/algorithms/metaheuristics/grasp.py:GraspAlgorithm", "jinete/models/criterions.py:ShortestTimeRouteCriterion"]}
