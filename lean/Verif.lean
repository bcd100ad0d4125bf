import Verif.Basic
import Verif.Model.Algorithms
import Verif.Model.Cloner
import Verif.Model.Columnar
import Verif.Model.Copy
import Verif.Model.Criterion
import Verif.Model.Defaults
import Verif.Model.Depth
import Verif.Model.Direction
import Verif.Model.Dispatch
import Verif.Model.Euclidean
import Verif.Model.File
import Verif.Model.Getters
import Verif.Model.Hash
import Verif.Model.Heap
import Verif.Model.Iterator
import Verif.Model.Launch
import Verif.Model.Loader
import Verif.Model.LocalSearch
import Verif.Model.Milp
import Verif.Model.MilpRoutes
import Verif.Model.Objective
import Verif.Model.Options
import Verif.Model.Planning
import Verif.Model.Plot
import Verif.Model.Programs
import Verif.Model.Rounded
import Verif.Model.RoundedRide
import Verif.Model.RoundedValue
import Verif.Model.Route
import Verif.Model.Search
import Verif.Model.Show
import Verif.Model.Solve
import Verif.Model.Stop
import Verif.Model.Storer
import Verif.Model.Strategy
import Verif.Model.Surface
import Verif.Model.Text
import Verif.Model.Trip
import Verif.Model.Utils
import Verif.Proofs.Append
import Verif.Proofs.Batch
import Verif.Proofs.Bound
import Verif.Proofs.Chain
import Verif.Proofs.Check
import Verif.Proofs.Choose
import Verif.Proofs.Clone
import Verif.Proofs.CloneInit
import Verif.Proofs.CloneStops
import Verif.Proofs.Columns
import Verif.Proofs.Compute
import Verif.Proofs.Contest
import Verif.Proofs.Copy
import Verif.Proofs.Double
import Verif.Proofs.Draft
import Verif.Proofs.Euclidean
import Verif.Proofs.Feasible
import Verif.Proofs.File
import Verif.Proofs.FiniteValues
import Verif.Proofs.FootIterator
import Verif.Proofs.FootRoute
import Verif.Proofs.FootSearch
import Verif.Proofs.Footprint
import Verif.Proofs.Improve
import Verif.Proofs.Insert
import Verif.Proofs.Integral
import Verif.Proofs.Loader
import Verif.Proofs.LocalStep
import Verif.Proofs.Meets
import Verif.Proofs.Milp
import Verif.Proofs.MilpBuild
import Verif.Proofs.MilpFeasible
import Verif.Proofs.MilpFleet
import Verif.Proofs.MilpFollow
import Verif.Proofs.MilpInsert
import Verif.Proofs.MilpRoute
import Verif.Proofs.MilpVisit
import Verif.Proofs.Modify
import Verif.Proofs.NewOrigin
import Verif.Proofs.OneShift
import Verif.Proofs.OneShiftReturns
import Verif.Proofs.Options
import Verif.Proofs.Plot
import Verif.Proofs.Ranked
import Verif.Proofs.RankedNext
import Verif.Proofs.RankedRun
import Verif.Proofs.RankedStep
import Verif.Proofs.Ranking
import Verif.Proofs.Reach
import Verif.Proofs.Realloc
import Verif.Proofs.Remove
import Verif.Proofs.Report
import Verif.Proofs.Rounded
import Verif.Proofs.RoundedRide
import Verif.Proofs.RoundedValue
import Verif.Proofs.RouteEdit
import Verif.Proofs.Routes
import Verif.Proofs.Search
import Verif.Proofs.SearchAgree
import Verif.Proofs.SearchRuns
import Verif.Proofs.Separate
import Verif.Proofs.Shift
import Verif.Proofs.Silent
import Verif.Proofs.SmallJobs
import Verif.Proofs.Solve
import Verif.Proofs.Stateless
import Verif.Proofs.Steady
import Verif.Proofs.Text
import Verif.Proofs.Timing
import Verif.Proofs.TwoOpt
import Verif.Proofs.Values
import Verif.Proofs.Verdict
import Verif.Proofs.WellFormed
import Verif.Proofs.Whole
import Verif.Props.Again
import Verif.Props.Asking
import Verif.Props.BestValue
import Verif.Props.Clone
import Verif.Props.Columnar
import Verif.Props.Contest
import Verif.Props.Coverage
import Verif.Props.Defaults
import Verif.Props.Deliverable
import Verif.Props.Depth
import Verif.Props.Effort
import Verif.Props.Euclidean
import Verif.Props.Feasible
import Verif.Props.File
import Verif.Props.Getters
import Verif.Props.GraspRides
import Verif.Props.Hash
import Verif.Props.InPlace
import Verif.Props.Insertion
import Verif.Props.InsertionOrder
import Verif.Props.Isolation
import Verif.Props.Launch
import Verif.Props.Lines
import Verif.Props.Loader
import Verif.Props.Maximum
import Verif.Props.Milp
import Verif.Props.MilpDecode
import Verif.Props.MilpPath
import Verif.Props.MilpPlan
import Verif.Props.MilpProgram
import Verif.Props.MilpRoutes
import Verif.Props.MilpShortest
import Verif.Props.MoreTrips
import Verif.Props.Moving
import Verif.Props.OneShift
import Verif.Props.OneShiftReturns
import Verif.Props.Options
import Verif.Props.Plot
import Verif.Props.Programs
import Verif.Props.ReadDataset
import Verif.Props.Reading
import Verif.Props.Reallocation
import Verif.Props.Relaxing
import Verif.Props.Removal
import Verif.Props.Rounded
import Verif.Props.RoundedRide
import Verif.Props.RoundedValue
import Verif.Props.RouteEdit
import Verif.Props.SameTrips
import Verif.Props.Sampling
import Verif.Props.Search
import Verif.Props.SetOrder
import Verif.Props.Show
import Verif.Props.SmallJobs
import Verif.Props.Solve
import Verif.Props.Stateless
import Verif.Props.Storer
import Verif.Props.Strategy
import Verif.Props.Subset
import Verif.Props.Surface
import Verif.Props.Texts
import Verif.Props.Timing
import Verif.Props.Timings
import Verif.Props.Trip
import Verif.Props.TwoOpt
import Verif.Props.Utils
import Verif.Props.Value
import Verif.Props.Waiting
import Verif.Props.Whole
import Verif.Spec.Asking
import Verif.Spec.Columns
import Verif.Spec.Contest
import Verif.Spec.Deliverable
import Verif.Spec.Duties
import Verif.Spec.Euclidean
import Verif.Spec.File
import Verif.Spec.Insertion
import Verif.Spec.Isolation
import Verif.Spec.Itinerary
import Verif.Spec.Lines
import Verif.Spec.Loader
import Verif.Spec.LocalSearch
import Verif.Spec.Milp
import Verif.Spec.MilpPlan
import Verif.Spec.MilpRoutes
import Verif.Spec.Moving
import Verif.Spec.Options
import Verif.Spec.Plot
import Verif.Spec.Problem
import Verif.Spec.Programs
import Verif.Spec.Reach
import Verif.Spec.Reading
import Verif.Spec.Relaxed
import Verif.Spec.Report
import Verif.Spec.Rounded
import Verif.Spec.RoundedValue
import Verif.Spec.RouteState
import Verif.Spec.Search
import Verif.Spec.SetOrder
import Verif.Spec.Show
import Verif.Spec.Storer
import Verif.Spec.Timing
import Verif.Spec.Value
import Verif.Spec.Whole
