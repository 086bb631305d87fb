import Verif.Refcount.Props
import Verif.DList.Props
import Verif.SList.Props
import Verif.CompressedPtr.Props
import Verif.KAlloc.Props
import Verif.NvmItem.Props
import Verif.BigHash.EngineProps
import Verif.Sketch.Props
import Verif.Bloom.Props
import Verif.EnginePair.Props
import Verif.TombStones.Props
import Verif.InFlightPuts.Props
import Verif.HashTable.Iter
import Verif.MMLru.Props
import Verif.MM2Q.More
import Verif.NvmSync.Traces
import Verif.AllocClass.Examples
import Verif.MemPool.Examples
import Verif.MemPool.Restart
import Verif.HashTable.Restart
import Verif.NvmIndex.FixedRestart
import Verif.Cohort.Props
import Verif.FurcHash.Examples
import Verif.RegionPolicy.Props
import Verif.BlockCache.Props
import Verif.BlockCache.Faults
import Verif.BlockCache.Address
import Verif.NvmIndex.SparseProps
import Verif.NvmIndex.FixedLocal
import Verif.Sched.PoolProps
import Verif.Sched.NavyProps
import Verif.CCache.Props
import Verif.Datatype.MapProps
import Verif.Datatype.RangeMapProps
import Verif.Datatype.Examples
import Verif.Datatype.FixedArrayProps
import Verif.RecordIO.Props
import Verif.Pieces.RangeProps
import Verif.Pieces.KeyProps
import Verif.CacheProto.Model
import Verif.CacheProto.Inv
import Verif.CacheProto.Gen
import Verif.CacheProto.Eff
import Verif.CacheProto.Eff2
import Verif.CacheProto.Step
import Verif.CacheProto.Step2
import Verif.CacheProto.Step3
import Verif.CacheProto.Step4
import Verif.CacheProto.Step5
import Verif.CacheProto.Wait
import Verif.CacheProto.Props
import Verif.ChainedItem.Model
import Verif.ChainedItem.Lemmas
import Verif.ChainedItem.Ops
import Verif.ChainedItem.Ops2
import Verif.ChainedItem.Ops3
import Verif.ChainedItem.Ops4
import Verif.ChainedItem.Main
import Verif.ChainedItem.Props
import Verif.Ttl.Model
import Verif.Ttl.Props
import Verif.Ttl.Main
import Verif.Rebalance.Model
import Verif.Rebalance.Lemmas
import Verif.Rebalance.Props
import Verif.Rebalance.Main
import Verif.Rebalance.Main2
import Verif.Trackers.DropSet
import Verif.Trackers.DropSetLemmas
import Verif.Trackers.SplitSetProps
import Verif.Trackers.TimeMap
import Verif.Trackers.TimeMapProps
import Verif.Trackers.Tracker
import Verif.Trackers.TrackerProps
import Verif.BlockCache.Restart
import Verif.BlockCache.Shutdown
import Verif.Restart.RegionMgr
import Verif.WarmRestart.Findings
import Verif.NavyDevice.Findings
import Verif.NavyDevice.Queue
import Verif.Destructor.Findings
import Verif.Async.Findings
import Verif.Async.Ctx
import Verif.MMLfu.Props
import Verif.MMLfu.Findings
import Verif.MMWLfu.Props
import Verif.MMWLfu.Findings
import Verif.Persist.Checked
import Verif.Persist.Findings
import Verif.Consist.Props
import Verif.Consist.Findings
import Verif.Worker.Props
import Verif.Worker.Findings
import Verif.NvmIndex.OverflowProps
import Verif.NvmIndex.OverflowFindings
import Verif.Ceb.Props
import Verif.Ceb.Link
import Verif.Ceb.Findings
import Verif.Atm.Main
import Verif.Atm.Findings
import Verif.HotHash.Hot
import Verif.HotHash.Examples
import Verif.HotHash.Findings
import Verif.Latch.Props
import Verif.Latch.Findings
import Verif.Reuse.Props
import Verif.Reuse.Findings
import Verif.Advise.Props
import Verif.Advise.Findings
import Verif.Rate.Props
import Verif.Rate.Findings
import Verif.Bytes.Props
import Verif.Bytes.Findings
