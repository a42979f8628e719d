import Verif.Util
import Verif.SizeClass
import Verif.Props.SizeClass
import Verif.Bitmap
import Verif.Props.FreeSlot
import Verif.Props.RandomUniform
import Verif.Props.Libdivide
import Verif.Props.Table
import Verif.SmallAllocSpec
import Verif.SmallFreeSpec
import Verif.SmallTrim
import Verif.Machine
import Verif.Ghost
import Verif.RoGeo
import Verif.GhostVm
import Verif.GhostClass
import Verif.GhostSmall
import Verif.GhostRegion
import Verif.GhostShrink
import Verif.GhostWrite
import Verif.Logic
import Verif.LogicPages
import Verif.SpecPages
import Verif.SpecLarge
import Verif.SpecQuar
import Verif.SpecFree
import Verif.SpecSmall
import Verif.SpecMem
import Verif.SpecApi
import Verif.SpecAligned
import Verif.SpecRead
import Verif.SpecRealloc
import Verif.Init
import Verif.InitSpec
import Verif.History
import Verif.Seq
import Verif.Link
import Verif.LinkCall
import Verif.LinkStep
import Verif.LinkReach
import Verif.Example
import Verif.Facts
import Verif.Props.Blocks
import Verif.Props.Layout
import Verif.Props.Free
import Verif.Props.Sizes
import Verif.Canary
import Verif.Props.Content
import Verif.Props.Fail
import Verif.Props.Capacity
import Verif.Props.Seal
import Verif.Props.Quarantine
import Verif.Props.Stats
import Verif.Props.Threads
import Verif.Props.Random
import Verif.Props.SysIo
import Verif.Props.New
import Verif.Props.Locks
import Verif.Props.Disable
import Verif.Props.Mte
import Verif.Props.Robust
import Verif.Boot
import Verif.Before
import Verif.Props.Boot
import Verif.Props.Start
import Verif.Leak
import Verif.Props.Leak
import Verif.Outside
import Verif.Props.Foreign
import Verif.Cell
import Verif.CellLemmas
import Verif.CellSmall
import Verif.LocalSections
import Verif.Fine
import Verif.FineInv
import Verif.Props.Overlap
import Verif.Props.Counts
import Verif.Statistics
import Verif.Props.Statistics
import Verif.Props.Race
import Verif.Blind
import Verif.Wild
import Verif.Props.Wild
import Verif.Props.ThreadsLayout
import Verif.Budget
import Verif.ConcCount
import Verif.Props.ThreadsQuarantine
import Verif.ConcLeak
import Verif.ConcLeakInv
import Verif.Props.ThreadsLeak
import Verif.Shared
import Verif.SharedInv
import Verif.Props.SharedBlocks
import Verif.WildPath
import Verif.Props.Detect
import Verif.Props.WriteAfterFree
import Verif.Props.Errno
import Verif.Props.Stale
import Verif.Steps
import Verif.Props.Progress
import Verif.Props.DetectRealloc
import Verif.Props.Placement
import Verif.Stubs
import Verif.Props.Stubs
import Verif.Memtag
import Verif.Props.Memtag
import Verif.Props.TagAccess
import Verif.ConcTags
import Verif.ConcTagsInv
import Verif.Props.ThreadsTags
import Verif.Props.Delay
import Verif.Props.RandomLayout
import Verif.Props.RandomGuards
import Verif.Props.RandomCanary
import Verif.Props.RandomCanaryTags
import Verif.Props.RandomRealloc
import Verif.Props.ThreadsReport
import Verif.Props.DataBlind
import Verif.Isolate
import Verif.Props.Isolation
import Verif.Props.IsolationOut
import Verif.Bounds
import Verif.Props.Bounds
import Verif.Props.StateGuards
