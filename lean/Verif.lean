import Verif.F32
import Verif.Basic
import Verif.Search
import Verif.Heap
import Verif.SearchLemmas
import Verif.Spec
import Verif.SearchLegal
import Verif.Prog
import Verif.Insert
import Verif.Disc
import Verif.Concrete
import Verif.TableLemmas
import Verif.SelectLemmas
import Verif.Conc
import Verif.InsertSafe
import Verif.Sys
import Verif.Reach
import Verif.ExecLemmas
import Verif.SearchTop
import Verif.Examples
import Verif.SearchNav
import Verif.Props.Search
import Verif.Access
import Verif.Props.Insert
import Verif.Props.Concurrent
import Verif.AccessLemmas
import Verif.Props.Access
import Verif.SelectSpec
import Verif.Props.Select
import Verif.F64
import Verif.Level
import Verif.Props.Level
import Verif.Filter
import Verif.Props.Filter
import Verif.SmallLemmas
import Verif.Props.Small
import Verif.Bytes
import Verif.Dump
import Verif.DataMap
import Verif.Load
import Verif.Api
import Verif.BytesLemmas
import Verif.IoLemmas
import Verif.LoadLemmas
import Verif.TruncLemmas
import Verif.ApiLemmas
import Verif.IoExamples
import Verif.Props.Reload
import Verif.HeaderLemmas
import Verif.MmapLemmas
import Verif.Props.Header
import Verif.Props.Files
import Verif.Props.Mmap
import Verif.Flatten
import Verif.FlattenLemmas
import Verif.Props.Flatten
import Verif.Ffi
import Verif.Props.Ffi
import Verif.EntryLemmas
import Verif.LinkSpec
import Verif.InsertSpec
import Verif.Props.Link
import Verif.AnyLemmas
import Verif.AnyMapLemmas
import Verif.Props.AnyBytes
import Verif.Props.Layout
import Verif.SearchConc
import Verif.SearchConcLemmas
import Verif.Props.SearchConc
import Verif.Locks
import Verif.LocksLemmas
import Verif.Props.Locks
import Verif.DumpConc
import Verif.DumpConcLemmas
import Verif.DumpFiles
import Verif.Props.DumpConc
import Verif.Writes
import Verif.WritesLemmas
import Verif.FailedLemmas
import Verif.Props.Writes
import Verif.Props.Cost
import Verif.GraphLemmas
import Verif.GraphParse
import Verif.Props.GraphBytes
import Verif.LevelLinks
import Verif.Props.Levels
import Verif.SearchMono
import Verif.Props.SearchMono
import Verif.GraphEq
import Verif.Props.GraphEq
import Verif.Param
import Verif.ParamInsert
import Verif.Image
import Verif.Props.Image
import Verif.Props.Exact
import Verif.Sections
import Verif.Props.Sections
import Verif.FfiHist
import Verif.Props.FfiHist
import Verif.Props.AnyMap
import Verif.Props.Flat
import Verif.Props.Law
import Verif.Ties
import Verif.Props.Ties
import Verif.CutLemmas
import Verif.Props.LoadFail
import Verif.Settings
import Verif.Props.Settings
import Verif.StdHeap
import Verif.Props.NaN
import Verif.Dead
import Verif.Props.Dead
import Verif.Reserve
import Verif.Props.Reserve
import Verif.IterConc
import Verif.IterConcLemmas
import Verif.Props.IterConc
import Verif.Paths
import Verif.Props.Paths
import Verif.ImproveLemmas
import Verif.Props.Improve
import Verif.Inherit
import Verif.Props.AnyInsert
import Verif.AnyDump
import Verif.Props.AnyDump
import Verif.Deadlock
import Verif.Props.Deadlock
import Verif.Linked
import Verif.Props.Linked
import Verif.Props.MapFiles
import Verif.Props.Float
import Verif.Props.CutMap
import Verif.Props.Bounds
import Verif.Props.Reuse
import Verif.Props.DropAny
import Verif.Props.Again
import Verif.Props.Prefix
import Verif.InsertCost
import Verif.Props.InsertCost
import Verif.Props.AnyConc
import Verif.FlatConc
import Verif.Props.FlatConc
import Verif.Props.TornCut
import Verif.AccessConc
import Verif.Props.AccessConc
import Verif.FlattenConc
import Verif.Props.FlattenConc
import Verif.Together
import Verif.Props.Together
import Verif.Props.TogetherAny
import Verif.Props.AnyCost
import Verif.Props.AnySearch
import Verif.Linear
import Verif.Cost
import Verif.CostLemmas
import Verif.Props.Linear
import Verif.Capacity
import Verif.Props.Capacity
import Verif.CapInsert
import Verif.Props.CapInsert
import Verif.LayerInfo
import Verif.Props.LayerInfo
import Verif.LoadMem
import Verif.Props.LoadMem
import Verif.NoWait
import Verif.Props.NoWait
import Verif.MapArith
import Verif.Props.MapArith
import Verif.LoadArith
import Verif.Props.LoadArith
import Verif.Axioms
