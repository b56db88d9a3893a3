import Verif.Tactics
import Verif.Evm.WordModel
import Verif.Evm.WordLemmas
import Verif.Evm.WordProps
import Verif.Base.Bytes
import Verif.Dex.OrderIdModel
import Verif.Dex.OrderIdSpec
import Verif.Dex.OrderIdProps
import Verif.Dex.BigFloat
import Verif.Dex.MatcherModel
import Verif.Dex.MatcherSpec
import Verif.Dex.MatcherLemmas
import Verif.Dex.MatcherStore
import Verif.Dex.MatcherMain
import Verif.Dex.MatcherTrace
import Verif.Dex.BigFloatErr
import Verif.Dex.MatcherProps
import Verif.Dex.MatcherExamples
import Verif.Dex.FundModel
import Verif.Dex.FundSpec
import Verif.Dex.FundLemmas
import Verif.Dex.FundInv
import Verif.Dex.FundProps
import Verif.Dex.OwnerProps
import Verif.Dex.FundExamples
import Verif.Vm.LedgerModel
import Verif.Vm.LedgerSpec
import Verif.Vm.LedgerProps
import Verif.Vm.LedgerExamples
import Verif.Vm.Carried
import Verif.Builtin.AssetModel
import Verif.Builtin.AssetSpec
import Verif.Builtin.AssetProps
import Verif.Builtin.AssetExamples
import Verif.Vm.ContractProps
import Verif.Builtin.StakeModel
import Verif.Builtin.StakeSpec
import Verif.Builtin.StakeProps
import Verif.Builtin.StakeExamples
import Verif.Builtin.NameListModel
import Verif.Builtin.NameListProps
import Verif.Builtin.RewardModel
import Verif.Builtin.RewardProps
import Verif.Base.Table
import Verif.Builtin.GovModel
import Verif.Builtin.GovSpec
import Verif.Builtin.GovProps
import Verif.Builtin.GovRewardProps
import Verif.Builtin.GovOwedProps
import Verif.Builtin.GovListProps
import Verif.Builtin.GovExamples
import Verif.Vm.QuotaTables
import Verif.Vm.QuotaModel
import Verif.Vm.QuotaProps
import Verif.Vm.QuotaExamples
import Verif.Evm.QuotaTable
import Verif.Evm.InterpModel
import Verif.Evm.InterpSpec
import Verif.Evm.InterpLemmas
import Verif.Evm.JumpProps
import Verif.Evm.InterpWords
import Verif.Evm.InterpGas
import Verif.Evm.InterpInv
import Verif.Evm.InterpProps
import Verif.Evm.InterpMem
import Verif.Evm.InterpExamples
import Verif.Evm.RefSpec
import Verif.Evm.RefProps
import Verif.Evm.RefStep
import Verif.Evm.InterpQuota
import Verif.Evm.InterpPrice
import Verif.Evm.RefExamples
import Verif.Dex.ShareModel
import Verif.Dex.ShareSpec
import Verif.Dex.ShareProps
import Verif.Dex.ExJobs
import Verif.Dex.ExProps
import Verif.Dex.ExExamples
import Verif.Dex.PeriodModel
import Verif.Dex.PeriodSpec
import Verif.Dex.PeriodProps
import Verif.Chain.QuotaListModel
import Verif.Chain.QuotaListSpec
import Verif.Chain.QuotaListLemmas
import Verif.Chain.QuotaListProps
import Verif.Store.FilesModel
import Verif.Store.FilesSpec
import Verif.Store.FilesLemmas
import Verif.Store.FilesWrite
import Verif.Store.FilesDisk
import Verif.Store.FilesFlush
import Verif.Store.FilesInv
import Verif.Store.FilesProps
import Verif.Store.FilesExamples
import Verif.Store.BatchModel
import Verif.Store.BatchProps
import Verif.Store.KvModel
import Verif.Store.KvProps
import Verif.Store.NodeModel
import Verif.Store.NodeSpec
import Verif.Store.NodeLemmas
import Verif.Store.NodeProps
import Verif.Store.NodeExamples
import Verif.State.DbModel
import Verif.State.DbSpec
import Verif.State.DbBatch
import Verif.State.DbTarget
import Verif.State.DbDeep
import Verif.State.DbRedo
import Verif.State.DbInv
import Verif.State.DbLog
import Verif.State.DbStep
import Verif.State.DbRoll
import Verif.State.DbProps
import Verif.State.DbExamples
import Verif.State.KeyProps
import Verif.State.GidProps
import Verif.Consensus.ElectModel
import Verif.Consensus.ElectLemmas
import Verif.Consensus.ElectProps
import Verif.Consensus.SlotModel
import Verif.Consensus.SlotProps
import Verif.Snap.TimeModel
import Verif.Snap.TimeProps
import Verif.Snap.ChainModel
import Verif.Snap.ChainProps
import Verif.Snap.SeedProps
import Verif.Snap.LimitProps
import Verif.Snap.ControlProps
import Verif.Stats.StatModel
import Verif.Stats.StatSpec
import Verif.Stats.StatLemmas
import Verif.Stats.StatProps
import Verif.Stats.RateProps
import Verif.Text.TextModel
import Verif.Text.TextProps
import Verif.Abi.AbiModel
import Verif.Abi.AbiProps
import Verif.Abi.AbiMore
import Verif.Lattice.LatticeModel
import Verif.Lattice.LatticeSpec
import Verif.Lattice.LatticeIndex
import Verif.Lattice.LatticeRoll
import Verif.Lattice.LatticeDrop
import Verif.Lattice.LatticeInv
import Verif.Lattice.LatticeSteps
import Verif.Lattice.LatticeReach
import Verif.Lattice.LatticeProps
import Verif.Lattice.LatticeExamples
import Verif.Road.RoadModel
import Verif.Road.RoadSpec
import Verif.Road.RoadCut
import Verif.Road.RoadPool
import Verif.Road.RoadFront
import Verif.Road.RoadReach
import Verif.Road.RoadProps
import Verif.Road.RoadExamples
import Verif.Fork.ForkModel
import Verif.Fork.ForkSpec
import Verif.Fork.ForkInv
import Verif.Fork.ForkGrow
import Verif.Fork.ForkDisk
import Verif.Fork.ForkMove
import Verif.Fork.ForkConfirm
import Verif.Fork.ForkPrune
import Verif.Fork.ForkPruned
import Verif.Fork.ForkSwap
import Verif.Fork.ForkSwitch
import Verif.Fork.ForkSweep
import Verif.Fork.ForkProps
import Verif.Fork.ForkExamples
import Verif.Settle.SettleModel
import Verif.Settle.SettleSpec
import Verif.Settle.SettleLemmas
import Verif.Settle.SettleProps
import Verif.Settle.SettleExamples
import Verif.Block.BlockModel
import Verif.Block.BlockSpec
import Verif.Block.BlockLemmas
import Verif.Block.BlockProps
import Verif.Block.SnapshotProps
import Verif.Block.MsgProps
import Verif.Block.BlockExamples
import Verif.Iter.IterModel
import Verif.Iter.IterSpec
import Verif.Iter.MergeLemmas
import Verif.Iter.MergeProps
import Verif.Iter.StorageLemmas
import Verif.Iter.StorageProps
import Verif.Iter.SnapLemmas
import Verif.Iter.SnapProps
import Verif.Iter.IterExamples
import Verif.RCache.RCacheModel
import Verif.RCache.RCacheSpec
import Verif.RCache.RCacheLemmas
import Verif.RCache.SegLemmas
import Verif.RCache.InvLemmas
import Verif.RCache.InitLemmas
import Verif.RCache.RCacheProps
import Verif.RCache.RCacheExamples
import Verif.Net.CodecModel
import Verif.Net.CodecProps
import Verif.Net.HandshakeModel
import Verif.Net.HandshakeProps
import Verif.Net.NetExamples
import Verif.Sync.PlanModel
import Verif.Sync.PlanSpec
import Verif.Sync.PlanProps
import Verif.Sync.PlanCache
import Verif.Sync.PlanLoop
import Verif.Sync.SegCacheModel
import Verif.Sync.SegCacheSpec
import Verif.Sync.PlanFit
import Verif.Sync.SegCacheLemmas
import Verif.Sync.SegCacheInv
import Verif.Sync.SegCacheProps
import Verif.Sync.ChunkModel
import Verif.Sync.ChunkSpec
import Verif.Sync.ChunkProps
import Verif.Sync.SyncExamples
import Verif.Sync.ServeModel
import Verif.Sync.ServeProps
import Verif.Sync.ServeExamples
import Verif.Sync.SkelModel
import Verif.Sync.SkelProps
import Verif.Sync.TaskModel
import Verif.Sync.TaskProps
import Verif.Sync.PoolModel
import Verif.Sync.PoolProps
import Verif.Sync.FetchModel
import Verif.Sync.FetchProps
import Verif.Batch.BatchModel
import Verif.Batch.ExecModel
import Verif.Batch.ExecLemmas
import Verif.Batch.BatchLemmas
import Verif.Batch.BatchInv
import Verif.Batch.BatchStep
import Verif.Batch.BatchProps
import Verif.Batch.TopoModel
import Verif.Batch.TopoProps
import Verif.Batch.Examples
import Verif.Batch.FeedModel
import Verif.Batch.FeedLemmas
import Verif.Batch.FeedProps
import Verif.Batch.QueueProps
import Verif.Batch.FeedExamples
import Verif.Batch.CheckModel
import Verif.Batch.CheckProps
import Verif.Plug.InfoModel
import Verif.Plug.InfoSpec
import Verif.Plug.InfoLemmas
import Verif.Plug.InfoLedger
import Verif.Plug.InfoProps
import Verif.Plug.InfoExamples
import Verif.Plug.TokenModel
import Verif.Plug.TokenSpec
import Verif.Plug.TokenLemmas
import Verif.Plug.TokenProps
import Verif.Plug.TokenExamples
import Verif.Road.RoadRun
import Verif.Road.GroupModel
import Verif.Road.GroupSpec
import Verif.Road.GroupLemmas
import Verif.Road.GroupProps
import Verif.Road.GroupExamples
import Verif.Work.SchedModel
import Verif.Work.SchedSpec
import Verif.Work.SchedLemmas
import Verif.Work.SchedProps
import Verif.Work.SchedExamples
import Verif.Work.HeapModel
import Verif.Work.HeapSpec
import Verif.Work.HeapLemmas
import Verif.Work.HeapProps
import Verif.Work.HeapExamples
import Verif.Work.AcquireModel
import Verif.Work.AcquireProps
import Verif.Work.AcquireExamples
import Verif.Feed.QueryModel
import Verif.Feed.QuerySpec
import Verif.Feed.QueryLemmas
import Verif.Feed.QueryProps
import Verif.Feed.QueryExamples
import Verif.Feed.EventModel
import Verif.Feed.EventSpec
import Verif.Feed.EventLemmas
import Verif.Feed.EventProps
import Verif.Feed.EventExamples
import Verif.Feed.ListenModel
import Verif.Feed.ListenProps
import Verif.Feed.LoopModel
import Verif.Feed.LoopProps
import Verif.Feed.LoopExamples
import Verif.Wal.JournalModel
import Verif.Wal.JournalSpec
import Verif.Wal.JournalLemmas
import Verif.Wal.JournalProps
import Verif.Wal.JournalExamples
import Verif.Wal.JournalCheck
import Verif.Wal.RecoverModel
import Verif.Wal.RecoverSpec
import Verif.Wal.RecoverProps
import Verif.Wal.RecoverExamples
import Verif.Disc.DistModel
import Verif.Disc.DistSpec
import Verif.Disc.DistProps
import Verif.Disc.TableModel
import Verif.Disc.TableSpec
import Verif.Disc.TableLemmas
import Verif.Disc.TableProps
import Verif.Disc.TableViews
import Verif.Disc.TableExamples
import Verif.Disc.EndPointModel
import Verif.Disc.EndPointProps
import Verif.Disc.PoolModel
import Verif.Disc.PoolProps
import Verif.Wallet.DeriveModel
import Verif.Wallet.DeriveSpec
import Verif.Wallet.DeriveProps
import Verif.Wallet.StoreModel
import Verif.Wallet.StoreProps
import Verif.Wallet.ManagerModel
import Verif.Wallet.ManagerProps
import Verif.Lsm.Model
import Verif.Lsm.Look
import Verif.Lsm.Choose
import Verif.Lsm.Build
import Verif.Lsm.Inv
import Verif.Lsm.Compact
import Verif.Lsm.Spec
import Verif.Lsm.Props
import Verif.Lsm.IterModel
import Verif.Lsm.IterSpec
import Verif.Lsm.IterProps
import Verif.Lsm.Examples
import Verif.Gossip.FilterModel
import Verif.Gossip.FilterProps
import Verif.Gossip.ChooseModel
import Verif.Gossip.ChooseProps
import Verif.Gossip.Model
import Verif.Gossip.NodeProps
import Verif.Gossip.NetModel
import Verif.Gossip.NetSpec
import Verif.Gossip.NetProps
import Verif.Gossip.Traffic
import Verif.Mem.Model
import Verif.Mem.Lemmas
import Verif.Mem.Spec
import Verif.Mem.Props
import Verif.Mem.IterProps
import Verif.Mem.Copy
import Verif.Tab.BlockModel
import Verif.Tab.BlockLemmas
import Verif.Tab.BlockPrev
import Verif.Tab.BlockWrite
import Verif.Tab.BlockRep
import Verif.Tab.Spec
import Verif.Tab.BlockProps
import Verif.Tab.TableModel
import Verif.Tab.TableLemmas
import Verif.Tab.TableClose
import Verif.Tab.TableProps
import Verif.Tab.Comparer
import Verif.Tab.Records
import Verif.Tab.Examples
import Verif.Tab.IterModel
import Verif.Tab.IterLemmas
import Verif.Tab.IterProps
import Verif.Tab.MergeModel
import Verif.Tab.MergeProps
import Verif.Tab.LevelModel
import Verif.Tab.LevelProps
import Verif.Tab.LevelExamples
import Verif.Man.Model
import Verif.Man.RecordProps
import Verif.Man.VersionProps
import Verif.Man.SessionProps
import Verif.Man.Examples
import Verif.Upgrade.Model
import Verif.Upgrade.Props
import Verif.Text.HexModel
import Verif.Text.HexProps
import Verif.Ndb.Model
import Verif.Ndb.Props
import Verif.Ndb.MarkProps
import Verif.Evm.StatusModel
import Verif.Evm.StatusProps
import Verif.Evm.CreateModel
import Verif.Evm.CreateProps
import Verif.Ndb.BanModel
import Verif.Ndb.BanProps
