import Verif.Proofs.Graph
import Verif.Props.Utils
import Verif.Proofs.Bfs
import Verif.Proofs.Bfs2
import Verif.Proofs.BfsApi
import Verif.Props.Bfs
import Verif.Props.Lca
import Verif.Proofs.WWalk
import Verif.Props.BellmanFord
import Verif.Props.BellmanFordPath
import Verif.Props.FloydWarshall
import Verif.Props.Ego
import Verif.Proofs.Count
import Verif.Props.Cluster
import Verif.Props.ClusterDir
import Verif.Props.ClusterW
import Verif.Props.Truss
import Verif.Props.GenDegree
import Verif.Props.Square
import Verif.Props.Cache
import Verif.Props.Memo
import Verif.Props.Operators
import Verif.Props.Convert
import Verif.Props.NodeMap
import Verif.Props.NodeRows
import Verif.Props.Cuts
import Verif.Props.Small
import Verif.Props.Small2
import Verif.Props.Isomorph
import Verif.Props.PageRank
import Verif.Props.Google
import Verif.Props.Centrality
import Verif.Props.Katz
import Verif.Props.Linalg
import Verif.Props.Dispatch
import Verif.Props.Relabel
import Verif.Props.Relabel2
import Verif.Props.Relabel3
import Verif.Props.Relabel4
import Verif.Props.Relabel5
import Verif.Props.NodeSets
import Verif.Props.TriadHistory
import Verif.Props.OperatorsErr
import Verif.Props.Maps
import Verif.Props.Input
import Verif.Tests.RepoTests
import Verif.Model.Effects
import Verif.Model.EffectsTable
import Verif.Proofs.Effects
import Verif.Props.Effects
import Verif.Props.Construct
import Verif.Props.Agree
import Verif.Props.Agree2
import Verif.Props.Compose
import Verif.Props.ClusterLoops
import Verif.Props.BfExact
import Verif.Props.BfCutoff
import Verif.Props.Weights
import Verif.Props.Units
import Verif.Props.Scale
import Verif.Props.Monotone
import Verif.Props.Local
import Verif.Props.Buffers
import Verif.Props.Workspace
import Verif.Props.Lazy
import Verif.Props.RelabelBf
import Verif.Props.FwExact
import Verif.Props.BfPathSound
import Verif.Props.BfPathExact
import Verif.Props.HitsAuth
import Verif.Props.Degenerate
import Verif.Model.Programs
import Verif.Model.Run
import Verif.Proofs.Programs
import Verif.Proofs.Run
import Verif.Props.Programs
import Verif.Props.ProgramsNum
import Verif.Props.ProgramsW
import Verif.Props.IsomorphExact
import Verif.Model.Names
import Verif.Spec.Names
import Verif.Props.Names
import Verif.Model.Threads
import Verif.Proofs.Threads
import Verif.Props.Threads
import Verif.Props.ExactMisc
import Verif.Props.FwPerm
import Verif.Props.ClusterWLoops
import Verif.Props.Multi
import Verif.Props.Backend
import Verif.Props.Fixpoint
import Verif.Model.Raises
import Verif.Props.Raises
import Verif.Props.BackendVal
import Verif.Props.BackendVal2
import Verif.Props.BackendVal3
import Verif.Props.Machine
import Verif.Props.MachineSums
import Verif.Props.Float
import Verif.Props.Float64
import Verif.Props.FloatRatio
import Verif.Props.FloatSquare
import Verif.Props.FloatKatz
import Verif.Props.FloatKatz64
import Verif.Props.FloatHits
import Verif.Props.FloatHits64
import Verif.Props.FloatGoogle
import Verif.Props.FloatGoogle64
import Verif.Props.FloatEigen64
import Verif.Props.FloatKatzUnit
import Verif.Props.FloatCuts
import Verif.Props.MachineTruss
import Verif.Props.MachinePath
import Verif.Model.Boolean
import Verif.Props.Boolean
import Verif.Props.SetOps
import Verif.Props.MapViews
import Verif.Props.Ranges
import Verif.Props.Extremes
import Verif.Props.Parts
import Verif.Props.Parts2
import Verif.Props.FloatRank
import Verif.Props.FloatRank64
