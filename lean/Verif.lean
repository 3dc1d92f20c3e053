import Verif.Model.Store.Read
import Verif.Model.Store.Ops
import Verif.Props.BitFlags
import Verif.Props.Disaggregate
import Verif.Props.Hashing
import Verif.Props.Partitions
import Verif.Props.Quantize
import Verif.Props.Selectors
import Verif.Props.SelectorText
import Verif.Props.StoreIndex
import Verif.Props.StoreLinks
import Verif.Props.Order
import Verif.Props.StoreHistory
import Verif.Props.StoreFingerprint
import Verif.Props.StoreMerge
import Verif.Props.StoreDelete
import Verif.Props.StoreProportions
import Verif.Props.StoreComplete
import Verif.Props.StorePartitions
import Verif.Props.Granularity
import Verif.Props.GraphListing
import Verif.Props.StoreGranularity
import Verif.Props.StoreRead
import Verif.Props.StoreRelabel
import Verif.Props.StoreMapLoad
import Verif.Props.IndexCode
import Verif.Props.Tabular
import Verif.Props.Text
import Verif.Props.StoreListing
import Verif.Props.StoreManage
import Verif.Props.StoreDropColumns
import Verif.Props.StoreSelect
import Verif.Props.StorePolicies
import Verif.Props.StoreIndexLoad
import Verif.Props.Reader
import Verif.Props.Graph
import Verif.Props.Mapper
import Verif.Props.MappingCsv
import Verif.Props.MappingRoundtrip
import Verif.Props.IndexCsv
import Verif.Props.LoadMapping
import Verif.Props.LoadAccepts
import Verif.Props.Csv
import Verif.Props.ArgList
import Verif.Props.CliEdit
import Verif.Props.Uri
import Verif.Props.Edge
import Verif.Props.Format
import Verif.Props.Info
import Verif.Props.QuantCsv
import Verif.Props.StoreMapEdit
import Verif.Props.StoreFrame
import Verif.Props.StoreWeightEdit
import Verif.Props.StoreAddColumns
import Verif.Props.Migrate
import Verif.Props.Save
import Verif.Props.StoreSplit
import Verif.Props.LegacyRemove
import Verif.Props.LegacyHistory
import Verif.Props.LegacySplit
import Verif.Props.Files
import Verif.Props.OldSqlite
import Verif.Props.Units
import Verif.Props.SameContent
import Verif.Props.Concurrent
import Verif.Props.StoreOldLoad
import Verif.Props.StoreDeleteRun
import Verif.Props.StoreOldIndex
import Verif.Props.StoreIndexTurn
import Verif.Props.StoreUndo
import Verif.Props.StoreRepeat
import Verif.Props.StoreIndexRepeat
import Verif.Props.Spelling
import Verif.Props.Adding
import Verif.Props.Json
import Verif.Props.TableLoad
import Verif.Props.Init
import Verif.Props.Region
import Verif.Props.Reports
import Verif.Props.Detour
import Verif.Props.Command
import Verif.Props.Binary
import Verif.Props.BinaryTranslate
import Verif.Props.Fair
import Verif.Props.BinaryOrder
import Verif.Props.BinaryRead
import Verif.Props.LegacyEdges
import Verif.Props.UsedWeights
import Verif.Props.LegacyMapper
import Verif.Props.Hints
import Verif.Props.BinaryReader
import Verif.Props.LegacyComplete
import Verif.Props.InfoCommand
import Verif.Props.WeightTable
import Verif.Props.CommandLine
import Verif.Props.MappingInfo
import Verif.Props.Header
import Verif.Props.LegacyReadLink
import Verif.Props.LegacyRemoveLinks
import Verif.Props.LegacyLinkRoundtrip
import Verif.Props.LegacyMapTable
import Verif.Props.LegacyRawQuantities
import Verif.Props.LegacyGroups
import Verif.Props.LegacyRebuildLink
import Verif.Props.LegacyAddColumnLinks
import Verif.Props.LegacyRename
import Verif.Props.LegacyRemoveRebuilt
import Verif.Props.LegacyOldDisaggregate
import Verif.Props.IndexCsvTable
