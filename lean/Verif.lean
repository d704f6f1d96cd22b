import Verif.Base.Dict
import Verif.Model.Engine
import Verif.Spec.Engine
import Verif.Lemmas.Engine
import Verif.Lemmas.EngineTarjan
import Verif.Lemmas.EngineData
import Verif.Lemmas.EngineTotal
import Verif.Model.Tstack
import Verif.Lemmas.Tstack
import Verif.Lemmas.Tstack2
import Verif.Lemmas.Tstack3
import Verif.Lemmas.Tstack4
import Verif.Lemmas.EngineMatrix
import Verif.Spec.EngineExample
import Verif.Props.Engine
import Verif.Props.Engine2
import Verif.Props.Engine3
import Verif.Model.Lci
import Verif.Props.Lci
import Verif.Props.SynList
import Verif.Props.SynListJson
import Verif.Props.Cas
import Verif.Props.Flowables
import Verif.Props.LowerDict
import Verif.Props.Process
import Verif.Props.Flow
import Verif.Props.Archive
import Verif.Props.ArchiveNames
import Verif.Props.FragmentLinear
import Verif.Props.FragmentIos
import Verif.Props.FragmentBalance
import Verif.Props.FragmentEvs
import Verif.Props.FragmentJson
import Verif.Props.FragmentTree
import Verif.Props.FragmentFork
import Verif.Props.LciaAdd
import Verif.Props.CompartmentJson
import Verif.Props.ResolverHist
import Verif.Props.AutoRange
import Verif.Props.Index
import Verif.Props.ForegroundHist
import Verif.Props.Configure
import Verif.Props.FlatBgCons
import Verif.Props.QdbFind
import Verif.Props.QdbStore
import Verif.Props.QdbConvert
import Verif.Props.QdbRepeat
import Verif.Props.QdbLcia
import Verif.Props.FragmentSplitOp
import Verif.Props.EngineRefuse
import Verif.Props.Catalog
import Verif.Props.CatalogGet
import Verif.Props.CatalogUse
import Verif.Props.Privacy
import Verif.Props.ProcessJson
import Verif.Props.Equality
import Verif.Props.FlowJson
import Verif.Props.EntityJson
import Verif.Props.FlowRef
import Verif.Props.RefItems
import Verif.Props.FragStoreEx
import Verif.Props.CatConfig
import Verif.Props.FragmentClone3
import Verif.Props.FragmentReverse
import Verif.Props.Forest
import Verif.Props.FragmentLoop3
import Verif.Props.InventoryRel
import Verif.Props.BgFile
import Verif.Props.UnitScore2
import Verif.Props.Spold2c
import Verif.Props.Spold1b
import Verif.Props.Olca3
import Verif.Props.Search3
import Verif.Props.IndexCat2
import Verif.Props.Uid
import Verif.Props.Ilcd3
import Verif.Props.FileStore
import Verif.Props.FragNode
import Verif.Props.LciaBox
import Verif.Props.Scenarios
import Verif.Props.Cutoffs
import Verif.Props.QtyImpl
import Verif.Props.CompartmentOps
import Verif.Props.CompartmentFile
import Verif.Props.CasNumber
import Verif.Props.TraciTable
import Verif.Props.EcoinventTable
import Verif.Props.IlcdLcia
import Verif.Props.FragTerm
import Verif.Props.FragTermOp
import Verif.Props.ArcFile
import Verif.Props.ArcReopen
import Verif.Props.Charts
import Verif.Props.ChartsBars
import Verif.Props.V1Client
import Verif.Props.V1Entities
import Verif.Props.V1Flows
import Verif.Props.QdbQty
import Verif.Props.Tables
import Verif.Props.NewFlowable
import Verif.Props.ScoreFile
import Verif.Props.EiSheet
import Verif.Props.BgManager
import Verif.Props.BgManagerFg
import Verif.Props.Es2Scores
import Verif.Props.OldSyn
import Verif.Props.FlowCells
