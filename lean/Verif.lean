import Verif.Basic
import Verif.Spec
import Verif.Model.Csgraph
import Verif.Model.Util
import Verif.Lemmas.Csgraph
import Verif.Lemmas.Util
import Verif.Lemmas.Forest
import Verif.Lemmas.InitialSol
import Verif.Lemmas.Lists
import Verif.Props.Util
import Verif.Model.Objective
import Verif.Model.AzpUtil
import Verif.Model.Azp
import Verif.Lemmas.Res
import Verif.Lemmas.Objective
import Verif.Lemmas.Azp
import Verif.Props.Objective
import Verif.Lemmas.AzpFit
import Verif.Lemmas.AzpUtil
import Verif.Lemmas.AzpOpt
import Verif.Props.Azp
import Verif.Props.AzpOpt
import Verif.Model.AzpSa
import Verif.Lemmas.AzpSa
import Verif.Props.AzpSa
import Verif.Model.AzpTabu
import Verif.Lemmas.AzpTabu
import Verif.Lemmas.AzpReact
import Verif.Props.AzpTabu
import Verif.Model.MaxPHeu
import Verif.Lemmas.MaxPGrow
import Verif.Lemmas.MaxPAssign
import Verif.Lemmas.MaxPFit
import Verif.Lemmas.MaxPMore
import Verif.Props.MaxPHeu
import Verif.Model.Lp
import Verif.Model.PRegionsExact
import Verif.Lemmas.Lp
import Verif.Lemmas.Bfs
import Verif.Lemmas.ExactFlow
import Verif.Lemmas.ExactOrder
import Verif.Lemmas.ExactTree
import Verif.Lemmas.ExactOpt
import Verif.Props.PRegionsExact
import Verif.Model.MaxPExact
import Verif.Lemmas.MaxPExact
import Verif.Props.MaxPExact
import Verif.Lemmas.Refine
import Verif.Model.Skater
import Verif.Lemmas.Skater
import Verif.Props.Skater
import Verif.Model.Adapters
import Verif.SpecAdapters
import Verif.Lemmas.Adapters
import Verif.Props.Adapters
import Verif.Props.Networkx
import Verif.Props.Options
import Verif.Props.Pysal
import Verif.Props.Objects
import Verif.Props.SkaterForest
import Verif.Props.SkaterObject
import Verif.Props.SkaterPlain
import Verif.Props.SkaterUnique
import Verif.Lemmas.SaUnlimited
import Verif.Props.SaUnlimited
import Verif.Props.Compare
import Verif.Lemmas.Rel
import Verif.Lemmas.RelTabu
import Verif.Lemmas.RelSkater
import Verif.Props.Units
import Verif.SpecHistory
import Verif.Lemmas.ReactHistory
import Verif.Props.React
import Verif.Model.Construct
import Verif.Lemmas.Islands
import Verif.Props.Reject
import Verif.Lemmas.Repeat
import Verif.Props.Repeat
import Verif.SpecNames
import Verif.Lemmas.Relabel
import Verif.Lemmas.RelabelTabu
import Verif.Lemmas.RelabelFit
import Verif.Props.Names
import Verif.Model.Seed
import Verif.Lemmas.Reads
import Verif.Lemmas.Seed
import Verif.Props.Seed
import Verif.SpecAzp
import Verif.Lemmas.AzpExact
import Verif.Lemmas.AzpExactFit
import Verif.Lemmas.Renumber
import Verif.Lemmas.IslandMaps
import Verif.Props.Zoning
import Verif.SpecStart
import Verif.Lemmas.StartCut
import Verif.Lemmas.StartForest
import Verif.Lemmas.StartGen
import Verif.Props.Start
import Verif.Props.Balance
import Verif.Model.Classes
import Verif.Model.Elements
import Verif.Props.Classes
import Verif.Props.Elements
import Verif.SpecMaxp
import Verif.Lemmas.MaxPConstruct
import Verif.Props.Construct
import Verif.Lemmas.Layers
import Verif.Lemmas.MaxPResults
import Verif.Lemmas.RenumberMaxp
import Verif.Props.MaxpResults
import Verif.SpecTabu
import Verif.Lemmas.TabuDescent
import Verif.Lemmas.TabuShort
import Verif.Lemmas.LocalMap
import Verif.Props.TabuDescent
import Verif.Lemmas.Rounding
import Verif.Props.Rounding
import Verif.Lemmas.ExactNames
import Verif.Props.ExactResults
import Verif.Model.Memory
import Verif.SpecMemory
import Verif.Lemmas.Memory
import Verif.Props.Memory
import Verif.Model.Arith
import Verif.Lemmas.Arith
import Verif.Props.Arith
import Verif.Lemmas.Potential
import Verif.Props.Reduction
import Verif.Model.Sparse
import Verif.Model.SkaterWeights
import Verif.Lemmas.Sparse
import Verif.Lemmas.SkaterWeights
import Verif.Props.Sparse
import Verif.Lemmas.OneWay
import Verif.Props.OneWay
import Verif.Model.TestUtil
import Verif.Lemmas.TestUtil
import Verif.Props.TestUtil
import Verif.Model.TestData
import Verif.Lemmas.Masks
import Verif.Lemmas.MaskDescent
import Verif.Lemmas.Published
import Verif.Lemmas.OneIsland
import Verif.Lemmas.TabuGuarded
import Verif.Lemmas.PublishedDescent
import Verif.Lemmas.PublishedTabu
import Verif.Lemmas.PublishedSeed
import Verif.Props.Published
import Verif.Props.PublishedTabu
import Verif.Lemmas.PublishedAnneal
import Verif.Props.PublishedAnneal
import Verif.Lemmas.PublishedSquare
import Verif.Props.PublishedMaxp
import Verif.Props.SkaterWeights
import Verif.SpecAnneal
import Verif.Lemmas.Anneal
import Verif.Lemmas.AnnealFit
import Verif.Lemmas.Twin
import Verif.Lemmas.StartOne
import Verif.Lemmas.AnnealScratch
import Verif.Lemmas.StartIslands
import Verif.Props.StartAny
import Verif.Props.Anneal
import Verif.Lemmas.AnnealIslands
import Verif.Props.AnnealIslands
import Verif.Model.TestSuite
import Verif.Lemmas.TestSuite
import Verif.Props.TestSuite
import Verif.SpecTabuRun
import Verif.Lemmas.TabuExact
import Verif.Lemmas.TabuExactFit
import Verif.Props.TabuExact
import Verif.SpecReactRun
import Verif.Lemmas.ReactExact
import Verif.Lemmas.ReactExactFit
import Verif.Props.ReactExact
import Verif.SpecReactIslands
import Verif.Lemmas.ReactIslands
import Verif.Props.ReactIslands
import Verif.SpecTabuMay
import Verif.Lemmas.TabuMay
import Verif.Lemmas.TabuMaxp
import Verif.Props.MaxpTabu
import Verif.Props.MaxpEnds
import Verif.Model.SparseAzp
import Verif.Lemmas.SparseAzp
import Verif.Props.SparseAzp
import Verif.Model.SparseMaxp
import Verif.Lemmas.SparseMaxp
import Verif.Props.SparseMaxp
import Verif.Props.Loops
import Verif.Props.QuotaUnits
import Verif.Props.Extremes
import Verif.Props.Singletons
import Verif.Props.Columns
import Verif.Lemmas.TabuGuard
import Verif.Props.TabuCenter
import Verif.Props.TabuRounding
