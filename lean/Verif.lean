import Verif.Props.Hash
import Verif.Props.Mutations
import Verif.Props.Info
import Verif.Props.Text
import Verif.Props.Xes
import Verif.Props.Split
import Verif.Props.Entropy
import Verif.Props.Position
import Verif.Props.Filters
import Verif.Props.Indirect
import Verif.Spec.TillEnd
import Verif.Props.TillEnd
import Verif.Props.Tandem
import Verif.Props.RepeatSets
import Verif.Props.Forest
import Verif.Props.Extract
import Verif.Props.Abstraction
import Verif.Props.Unattached
import Verif.Props.Classes
import Verif.Props.Pipeline
import Verif.Props.Heap
import Verif.Props.Parts
import Verif.Props.Colors
import Verif.Props.Rounds
import Verif.Props.Remote
import Verif.Props.Levels
import Verif.Props.Reports
import Verif.Props.Tags
import Verif.Props.FullFill
import Verif.Props.Nets
import Verif.Props.Canvas
import Verif.Props.Diagrams
import Verif.Props.ActDiagrams
import Verif.Props.Placement
import Verif.Model.Front
import Verif.Spec.Front
import Verif.Proofs.Front
import Verif.Props.Front
import Verif.Model.Values
import Verif.Spec.Values
import Verif.Proofs.Values
import Verif.Props.Values
import Verif.Model.Backend
import Verif.Spec.Backend
import Verif.Proofs.Backend
import Verif.Props.Backend
import Verif.Model.Library
import Verif.Spec.Library
import Verif.Proofs.Library
import Verif.Props.Library
import Verif.Model.Repeats
import Verif.Spec.Repeats
import Verif.Proofs.Repeats
import Verif.Props.Repeats
import Verif.Model.Datasets
import Verif.Spec.Datasets
import Verif.Proofs.Datasets
import Verif.Props.Datasets
import Verif.Model.Histograms
import Verif.Spec.Histograms
import Verif.Proofs.Histograms
import Verif.Props.Histograms
import Verif.Model.Pm4py
import Verif.Spec.Pm4py
import Verif.Proofs.Pm4py
import Verif.Props.Pm4py
import Verif.Model.LogParts
import Verif.Spec.LogParts
import Verif.Proofs.LogParts
import Verif.Props.LogParts
import Verif.Model.LogHash
import Verif.Spec.LogHash
import Verif.Props.LogHash
import Verif.Model.Files
import Verif.Spec.Files
import Verif.Proofs.Files
import Verif.Props.Files
import Verif.Props.FilesLevels
import Verif.Proofs.XesExact
import Verif.Props.XesExact
import Verif.Model.Discovery
import Verif.Spec.Discovery
import Verif.Proofs.Discovery
import Verif.Props.Discovery
import Verif.Proofs.Stops
import Verif.Props.Stops
import Verif.Model.Console
import Verif.Spec.Console
import Verif.Proofs.Console
import Verif.Props.Console
import Verif.Props.LeftPatterns
import Verif.Model.Sequences
import Verif.Props.Sequences
import Verif.Model.Labels
import Verif.Spec.Labels
import Verif.Props.Labels
import Verif.Model.Summaries
import Verif.Props.Summaries
import Verif.Model.DrawParts
import Verif.Spec.DrawParts
import Verif.Props.DrawParts
import Verif.Model.Curves
import Verif.Spec.Curves
import Verif.Props.Curves
import Verif.Props.NextRemoval
import Verif.Model.ClassGraph
import Verif.Spec.ClassGraph
import Verif.Props.ClassGraph
import Verif.Model.DiscoveryParts
import Verif.Spec.DiscoveryParts
import Verif.Proofs.Relabel
import Verif.Props.DiscoveryParts
import Verif.Props.XesWrite
import Verif.Model.RsInfo
import Verif.Spec.RsInfo
import Verif.Proofs.RsInfo
import Verif.Props.RsInfo
import Verif.Model.RsAlpha
import Verif.Spec.RsAlpha
import Verif.Proofs.AlphaCore
import Verif.Proofs.RsAlpha
import Verif.Props.RsAlpha
import Verif.Model.RsNet
import Verif.Spec.RsNet
import Verif.Proofs.RsNet
import Verif.Props.RsNet
import Verif.Model.RsReplay
import Verif.Spec.RsReplay
import Verif.Proofs.RsReplay
import Verif.Props.RsReplay
import Verif.Model.RsMarking
import Verif.Props.RsMarking
import Verif.Model.RsHeuristic
import Verif.Spec.RsHeuristic
import Verif.Proofs.GroupCore
import Verif.Proofs.RsHeuristic
import Verif.Proofs.RsGroups
import Verif.Proofs.RsHNet
import Verif.Proofs.RsHPlan
import Verif.Proofs.RsHShape
import Verif.Proofs.RsHLoops
import Verif.Props.RsHeuristic
import Verif.Model.RsMutations
import Verif.Spec.RsMutations
import Verif.Proofs.RsMutations
import Verif.Proofs.RsVariants
import Verif.Props.RsMutations
import Verif.Model.RsTandem
import Verif.Spec.RsTandem
import Verif.Proofs.RsTandem
import Verif.Props.RsTandem
import Verif.Model.RsActivities
import Verif.Spec.RsActivities
import Verif.Proofs.RsRepeatSets
import Verif.Props.RsRepeatSets
import Verif.Proofs.RsGraph
import Verif.Props.RsGraph
import Verif.Proofs.RsExtract
import Verif.Proofs.RsNarrow
import Verif.Props.RsExtract
import Verif.Model.RsInstances
import Verif.Spec.RsInstances
import Verif.Proofs.RsPieces
import Verif.Props.RsNewLog
import Verif.Props.RsUnattached
import Verif.Props.RsActivityLogs
import Verif.Model.RsLoop
import Verif.Spec.RsLoop
import Verif.Props.RsLoop
import Verif.Props.RsLevels
import Verif.Model.RsSuffix
import Verif.Spec.RsSuffix
import Verif.Proofs.RsSuffix
import Verif.Proofs.RsRepeats
import Verif.Proofs.RsAlone
import Verif.Props.RsSuffix
import Verif.Props.RsRepeats
import Verif.Model.RsPnml
import Verif.Spec.RsPnml
import Verif.Props.RsPnml
import Verif.Model.RsService
import Verif.Spec.RsService
import Verif.Props.RsService
import Verif.Model.RsXes
import Verif.Spec.RsXes
import Verif.Proofs.RsXes
import Verif.Props.RsXes
import Verif.Proofs.RsXesRound
import Verif.Props.RsXesRound
import Verif.Model.RsEntropy
import Verif.Spec.RsEntropy
import Verif.Proofs.RsEntropy
import Verif.Props.RsEntropy
import Verif.Model.RsFuzzy
import Verif.Spec.RsFuzzy
import Verif.Proofs.RsFuzzy
import Verif.Proofs.RsFuzzyEdges
import Verif.Proofs.RsFuzzyClusters
import Verif.Proofs.RsFuzzyStable
import Verif.Proofs.RsFuzzyMerge
import Verif.Props.RsFuzzyEdges
import Verif.Props.RsFuzzy
import Verif.Model.RsDistance
import Verif.Spec.RsDistance
import Verif.Proofs.RsDistance
import Verif.Proofs.RsCosine
import Verif.Props.RsDistance
import Verif.Model.RsTables
import Verif.Spec.RsTables
import Verif.Proofs.RsTables
import Verif.Proofs.RsWords
import Verif.Proofs.RsActivityTables
import Verif.Props.RsTables
import Verif.Model.RsClusters
import Verif.Spec.RsClusters
import Verif.Proofs.RsClusters
import Verif.Props.RsClusters
import Verif.Model.RsBxes
import Verif.Spec.RsBxes
import Verif.Proofs.RsBxes
import Verif.Props.RsBxes
import Verif.Model.RsNfc
import Verif.Spec.RsNfc
import Verif.Proofs.RsNfc
import Verif.Proofs.RsMaximize
import Verif.Proofs.RsNfcPairs
import Verif.Proofs.RsNfcTriples
import Verif.Proofs.RsNfcNet
import Verif.Props.RsNfc
import Verif.Model.RsNfcSets
import Verif.Spec.RsNfcSets
import Verif.Proofs.RsNfcSets
import Verif.Props.RsNfcSets
import Verif.Model.RsNfcArrows
import Verif.Spec.RsNfcArrows
import Verif.Proofs.RsNfcArrows
import Verif.Props.RsNfcArrows
import Verif.Model.RsNfcRules
import Verif.Spec.RsNfcRules
import Verif.Proofs.RsNfcRules
import Verif.Props.RsNfcRules
import Verif.Model.RsIntervals
import Verif.Spec.RsIntervals
import Verif.Proofs.RsIntervals
import Verif.Props.RsIntervals
import Verif.Model.RsNfcStages
import Verif.Spec.RsNfcStages
import Verif.Proofs.RsNfcStages
import Verif.Props.RsNfcStages
import Verif.Spec.RsEnds
import Verif.Proofs.RsEnds
import Verif.Props.RsEnds
import Verif.Model.RsNfcNets
import Verif.Spec.RsNfcNets
import Verif.Proofs.RsNfcNets
import Verif.Props.RsNfcNets
import Verif.Model.RsNfcWhole
import Verif.Spec.RsNfcWhole
import Verif.Proofs.RsNfcWhole
import Verif.Props.RsNfcWhole
import Verif.Model.RsSharp
import Verif.Spec.RsSharp
import Verif.Proofs.RsSharp
import Verif.Props.RsSharp
import Verif.Model.RsLogIter
import Verif.Spec.RsLogIter
import Verif.Props.RsLogIter
