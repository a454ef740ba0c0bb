import Verif.Model.Concrete
import Verif.Model.Utils
import Verif.Model.Registry
import Verif.Model.Builder
import Verif.Model.Imperative
import Verif.Proof.BuildAll
import Verif.Proof.Sort
import Verif.Proof.Instances
import Verif.Props.Sorting
import Verif.Props.Items
import Verif.Props.Lifecycle
import Verif.Proof.Total
import Verif.Model.Policy
import Verif.Props.Build
import Verif.Props.Conc
import Verif.Props.Races
import Verif.Props.Finish
import Verif.Proof.Hint
import Verif.Props.Hint
import Verif.Proof.SearchRun
import Verif.Proof.SearchSession
import Verif.Props.Search
import Verif.Props.SearchWitness
import Verif.Proof.Ieee
import Verif.Props.SearchOrder
import Verif.Props.QueryLength
import Verif.Props.Context
import Verif.Proof.Load
import Verif.Proof.LoadSearch
import Verif.Props.SaveLoad
import Verif.Props.SaveLoadWitness
import Verif.Props.Files
import Verif.Props.Garbage
import Verif.Proof.SearchCongr
import Verif.Props.Registry
import Verif.Props.Builder
import Verif.Props.Generators
import Verif.Props.AddAfterBuild
import Verif.Props.CopyNode
import Verif.Proof.IeeeMul
import Verif.Proof.IeeeSqrt
import Verif.Props.Distance
import Verif.Model.RealNum
import Verif.Model.VecLoops
import Verif.Props.Geometry
import Verif.Props.PreProcess
import Verif.Props.Hyperplane
import Verif.Proof.IeeeCanon
import Verif.Proof.SearchAlike
import Verif.Props.QueryBlind
import Verif.Props.OwnVector
import Verif.Spec.Sides
import Verif.Proof.Sides
import Verif.Props.Separation
import Verif.Spec.Ieee
import Verif.Proof.IeeeRound
import Verif.Proof.IeeeCorrect
import Verif.Proof.IeeeConv
import Verif.Spec.BestFirst
import Verif.Proof.BestFirst
import Verif.Props.BestFirst
import Verif.Proof.RootOrder
import Verif.Props.SaveLoadOrder
import Verif.Props.ConcSearch
import Verif.Props.Arena
import Verif.Props.SaveLoadWorkers
import Verif.Props.Reproducible
import Verif.Props.Kiss
import Verif.Props.KissStreams
import Verif.Props.NoTrees
import Verif.Props.SelfDistance
import Verif.Props.Growth
import Verif.Proof.ApproxIeee
import Verif.Props.Accuracy
import Verif.Proof.FirstTree
import Verif.Props.FirstTree
import Verif.Proof.Steady
import Verif.Proof.SteadyIeee
import Verif.Props.Margins
import Verif.Model.Precision
import Verif.Proof.Averages
import Verif.Props.Precision
import Verif.Props.Room
import Verif.Model.GoRandom
import Verif.Props.GoRandom
import Verif.Model.Round
import Verif.Props.Round
import Verif.Model.Verbose
import Verif.Props.Verbose
import Verif.Spec.Store
import Verif.Props.History
import Verif.Props.HistoryReal
import Verif.Props.DotIndex
import Verif.Props.Large
import Verif.Model.View
import Verif.Props.View
import Verif.Model.ConcAtomic
import Verif.Proof.ConcAtomic
import Verif.Props.OneWorker
import Verif.Props.Shared
import Verif.Props.Depth
import Verif.Proof.DataBlind
import Verif.Proof.Peel
import Verif.Proof.Swap
import Verif.Proof.SwapConc
import Verif.Props.DataBlind
import Verif.Props.Pops
import Verif.Props.SharedNodes
import Verif.Spec.TwoMeans
import Verif.Proof.TwoMeans
import Verif.Props.TwoMeans
import Verif.Proof.Imprint
import Verif.Proof.Roomy
import Verif.Props.Order
import Verif.Props.Unchecked
import Verif.Proof.DepthFirst
import Verif.Props.SearchCost
import Verif.Spec.DepthFirst
import Verif.Proof.DepthOrder
import Verif.Props.DepthFirst
import Verif.Model.ConcAdd
import Verif.Proof.ConcAdd
import Verif.Props.ConcAdd
import Verif.Model.ConcSave
import Verif.Proof.ConcSave
import Verif.Props.ConcSave
import Verif.Props.Attempts
import Verif.Props.Pages
import Verif.Props.Sizes
import Verif.Model.ConcBuild
import Verif.Proof.ConcBuild
import Verif.Props.ConcBuild
import Verif.Props.Coins
import Verif.Props.TrueSides
import Verif.Model.ConcClose
import Verif.Props.ConcClose
import Verif.Props.AnyMemory
import Verif.Props.Small
import Verif.Props.DotSides
import Verif.Props.Copies
import Verif.Props.Enough
import Verif.Props.ZeroVector
import Verif.Props.Decides
import Verif.Props.Subset
import Verif.Props.Mirror
import Verif.Props.Farthest
import Verif.Props.Triangle
import Verif.Props.Scaling
