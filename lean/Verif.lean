import Verif.Lemmas.Bits
import Verif.Lemmas.Bonds
import Verif.Lemmas.BruteForce
import Verif.Lemmas.CTMRGExact
import Verif.Lemmas.CTMRGParts
import Verif.Lemmas.CTMRGRun
import Verif.Lemmas.CTMRGStep
import Verif.Lemmas.Canon
import Verif.Lemmas.CanonTells
import Verif.Lemmas.CanonTest
import Verif.Lemmas.Capping
import Verif.Lemmas.Construct
import Verif.Lemmas.Contract
import Verif.Lemmas.ContractExp
import Verif.Lemmas.ContractPair
import Verif.Lemmas.ContractSlots
import Verif.Lemmas.Copy
import Verif.Lemmas.CopyOne
import Verif.Lemmas.CopyOut
import Verif.Lemmas.CreateAll
import Verif.Lemmas.CreateLoop
import Verif.Lemmas.CreateMPS
import Verif.Lemmas.Dense
import Verif.Lemmas.Diag
import Verif.Lemmas.Diag2
import Verif.Lemmas.Diag3
import Verif.Lemmas.DoubleMerge
import Verif.Lemmas.Exchange
import Verif.Lemmas.Ext
import Verif.Lemmas.FTN
import Verif.Lemmas.Frame
import Verif.Lemmas.FuelMono
import Verif.Lemmas.Funcs
import Verif.Lemmas.Glue
import Verif.Lemmas.Graph
import Verif.Lemmas.Greedy
import Verif.Lemmas.HOTRGExact
import Verif.Lemmas.HOTRGMath
import Verif.Lemmas.HOTRGRun
import Verif.Lemmas.HOTRGStep
import Verif.Lemmas.HOTRGSums
import Verif.Lemmas.Helpers
import Verif.Lemmas.Honey
import Verif.Lemmas.ImpurityExact
import Verif.Lemmas.ImpurityMath
import Verif.Lemmas.ImpurityRun
import Verif.Lemmas.ImpurityStep
import Verif.Lemmas.Ising
import Verif.Lemmas.Isometry
import Verif.Lemmas.LArr
import Verif.Lemmas.LabelMatrix
import Verif.Lemmas.Lattice
import Verif.Lemmas.LeftCut
import Verif.Lemmas.Legs
import Verif.Lemmas.Like
import Verif.Lemmas.Link
import Verif.Lemmas.LinkAt
import Verif.Lemmas.Links
import Verif.Lemmas.MPS
import Verif.Lemmas.MakeGraph
import Verif.Lemmas.Marks
import Verif.Lemmas.MatrixError
import Verif.Lemmas.Merge
import Verif.Lemmas.MergeLoop
import Verif.Lemmas.MergeMPS
import Verif.Lemmas.MergeStep
import Verif.Lemmas.MixedNet
import Verif.Lemmas.MixedRun
import Verif.Lemmas.MixedSearch
import Verif.Lemmas.MoveStep
import Verif.Lemmas.NDArray
import Verif.Lemmas.Net
import Verif.Lemmas.NetFrame
import Verif.Lemmas.NetSteps
import Verif.Lemmas.NewMPS
import Verif.Lemmas.Numbers
import Verif.Lemmas.OpenGauge
import Verif.Lemmas.OpenLattice
import Verif.Lemmas.Ops
import Verif.Lemmas.Outer
import Verif.Lemmas.Owner
import Verif.Lemmas.OwnerSplit
import Verif.Lemmas.Plane
import Verif.Lemmas.Predict
import Verif.Lemmas.QEnv
import Verif.Lemmas.RandomMPS
import Verif.Lemmas.RandomSites
import Verif.Lemmas.Rank
import Verif.Lemmas.RealEigh
import Verif.Lemmas.Replace
import Verif.Lemmas.SameArr
import Verif.Lemmas.Schmidt
import Verif.Lemmas.Schmidt3
import Verif.Lemmas.Search
import Verif.Lemmas.Sequence
import Verif.Lemmas.SlotRows
import Verif.Lemmas.SolveEnv
import Verif.Lemmas.Split
import Verif.Lemmas.SplitValue
import Verif.Lemmas.Step
import Verif.Lemmas.Steps
import Verif.Lemmas.SumBonds
import Verif.Lemmas.SumLegs
import Verif.Lemmas.Svd
import Verif.Lemmas.SvdExists
import Verif.Lemmas.Swap
import Verif.Lemmas.TNREnd
import Verif.Lemmas.TNRSum
import Verif.Lemmas.TRGExact
import Verif.Lemmas.TRGStep
import Verif.Lemmas.TextNet
import Verif.Lemmas.TextRead
import Verif.Lemmas.Torus
import Verif.Lemmas.Traces
import Verif.Lemmas.TriangleExact
import Verif.Lemmas.TriangleLattice
import Verif.Lemmas.TriangleStep
import Verif.Lemmas.Truncate
import Verif.Lemmas.Valid
import Verif.Model.Bits
import Verif.Model.CTMRG
import Verif.Model.CTMRGTensor
import Verif.Model.Canon
import Verif.Model.Construct
import Verif.Model.Contract
import Verif.Model.ContractExp
import Verif.Model.ContractList
import Verif.Model.ContractMPS
import Verif.Model.Copy
import Verif.Model.CopyOut
import Verif.Model.CreateMPS
import Verif.Model.Decompose
import Verif.Model.FTN
import Verif.Model.Funcs
import Verif.Model.Graph
import Verif.Model.GraphQuery
import Verif.Model.HOTRG
import Verif.Model.Helpers
import Verif.Model.Impurity
import Verif.Model.Ising
import Verif.Model.Lattice
import Verif.Model.Link
import Verif.Model.MPS
import Verif.Model.MakeGraph
import Verif.Model.MatrixError
import Verif.Model.NDArray
import Verif.Model.Plaquette
import Verif.Model.Py
import Verif.Model.Query
import Verif.Model.RG
import Verif.Model.RandomMPS
import Verif.Model.Search
import Verif.Model.Sequence
import Verif.Model.Store
import Verif.Model.StringSet
import Verif.Model.TNR
import Verif.Model.TNRDis
import Verif.Model.TNREnd
import Verif.Model.TNRSite
import Verif.Model.TNRStep
import Verif.Model.TRG
import Verif.Model.Tensor
import Verif.Model.TensorOps
import Verif.Model.Text
import Verif.Model.TextNet
import Verif.Model.TriangleTRG
import Verif.Props.Auto
import Verif.Props.CTMRG
import Verif.Props.CTMRGIsing
import Verif.Props.CTMRGTensor
import Verif.Props.Canon
import Verif.Props.Construct
import Verif.Props.ConstructDiag
import Verif.Props.Contract
import Verif.Props.ContractExp
import Verif.Props.ContractList
import Verif.Props.ContractMPS
import Verif.Props.ContractNets
import Verif.Props.Copy
import Verif.Props.CopyOut
import Verif.Props.CreateMPS
import Verif.Props.Decompose
import Verif.Props.FTN
import Verif.Props.FTNDiag
import Verif.Props.FTNLock
import Verif.Props.FTNSeq
import Verif.Props.Graph
import Verif.Props.GraphQuery
import Verif.Props.HOTRG
import Verif.Props.HOTRGCases
import Verif.Props.HOTRGNorms
import Verif.Props.Helpers
import Verif.Props.Impurity
import Verif.Props.Ising
import Verif.Props.Lattice
import Verif.Props.Legs
import Verif.Props.Like
import Verif.Props.Link
import Verif.Props.LinkRefs
import Verif.Props.Lists
import Verif.Props.MPS
import Verif.Props.MatrixError
import Verif.Props.NewMPS
import Verif.Props.Numbers
import Verif.Props.Ops
import Verif.Props.Plaquette
import Verif.Props.Query
import Verif.Props.RG
import Verif.Props.RandomMPS
import Verif.Props.Search
import Verif.Props.Sequence
import Verif.Props.StringSet
import Verif.Props.Subsets
import Verif.Props.TNR
import Verif.Props.TNRCases
import Verif.Props.TNRDis
import Verif.Props.TNRDisCases
import Verif.Props.TNREnd
import Verif.Props.TNREndCases
import Verif.Props.TNREnv
import Verif.Props.TNRRounds
import Verif.Props.TNRSite
import Verif.Props.TNRSiteCases
import Verif.Props.TNRStart
import Verif.Props.TNRStep
import Verif.Props.TNRStepCases
import Verif.Props.TNRUpdate
import Verif.Props.TRG
import Verif.Props.TRGNorms
import Verif.Props.TensorSVD
import Verif.Props.Text
import Verif.Props.TextNet
import Verif.Props.Traces
import Verif.Props.TriangleTRG
import Verif.Spec.CTMRG
import Verif.Spec.CTMRGTensor
import Verif.Spec.Canon
import Verif.Spec.Construct
import Verif.Spec.ContractExp
import Verif.Spec.ContractMPS
import Verif.Spec.Contraction
import Verif.Spec.Copy
import Verif.Spec.CopyOut
import Verif.Spec.CreateMPS
import Verif.Spec.Decompose
import Verif.Spec.FTN
import Verif.Spec.Graph
import Verif.Spec.HOTRG
import Verif.Spec.Honey
import Verif.Spec.Impurity
import Verif.Spec.Ising
import Verif.Spec.Lattice
import Verif.Spec.Like
import Verif.Spec.Links
import Verif.Spec.MPS
import Verif.Spec.Mixed
import Verif.Spec.Network
import Verif.Spec.OpenIsing
import Verif.Spec.OpenLattice
import Verif.Spec.Plaquette
import Verif.Spec.RG
import Verif.Spec.Search
import Verif.Spec.Sequence
import Verif.Spec.StringSet
import Verif.Spec.TNR
import Verif.Spec.TNRDis
import Verif.Spec.TNREnd
import Verif.Spec.TNRSite
import Verif.Spec.TNRStep
import Verif.Spec.TRG
import Verif.Spec.Text
import Verif.Spec.TextNet
import Verif.Spec.TiltedTorus
import Verif.Spec.Torus
import Verif.Spec.TriangleTRG
import Verif.Spec.Value
