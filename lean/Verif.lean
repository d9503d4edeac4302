import Verif.AA.Lemmas
import Verif.AA.Model
import Verif.AA.Props
import Verif.AVL.Lemmas
import Verif.AVL.Model
import Verif.AVL.Props
import Verif.Alias.Model
import Verif.Alias.Props
import Verif.Alloc.BlockModel
import Verif.Alloc.BlockProps
import Verif.Alloc.CacheAlloc
import Verif.Alloc.CacheAllocProps
import Verif.Alloc.CacheMoves
import Verif.Alloc.GreedyAlloc
import Verif.Alloc.GreedyAllocProps
import Verif.Alloc.GreedyBlock
import Verif.Alloc.LocklessBlock
import Verif.Alloc.LocklessBlockProps
import Verif.Alloc.Moves
import Verif.Alloc.RingAlloc
import Verif.Alloc.RingAllocProps
import Verif.Alloc.RingMoves
import Verif.Alloc.Standard
import Verif.Ani.Data
import Verif.Ani.Easing
import Verif.Ani.Interval
import Verif.Ani.Model
import Verif.Ani.Props
import Verif.Ani.Smooth
import Verif.Ani.Values
import Verif.Arith.BitCount
import Verif.Arith.BitField
import Verif.Arith.Compare
import Verif.Arith.Date
import Verif.Arith.FCompare
import Verif.Arith.FixedPt
import Verif.Arith.IntDiv
import Verif.Arith.MulExtract
import Verif.Arith.Pow2
import Verif.Arith.Sign
import Verif.Arith.Sqrt
import Verif.Arith.Stat
import Verif.Arr.Basic
import Verif.Arr.Model
import Verif.Arr.Props
import Verif.Arr.Refine
import Verif.Arr.Spec
import Verif.Arr.View
import Verif.Base64.Model
import Verif.Base64.Props
import Verif.BitStream.Model
import Verif.BitStream.Objects
import Verif.BitStream.Props
import Verif.BoolArr.Lemmas
import Verif.BoolArr.Model
import Verif.BoolArr.Props
import Verif.Circ.Lemmas
import Verif.Circ.Model
import Verif.Circ.Objects
import Verif.Circ.Props
import Verif.Circ.QueueLife
import Verif.Common.Cmp
import Verif.Common.Mem
import Verif.Common.Run
import Verif.Compact.Heap
import Verif.Compact.Model
import Verif.Compact.Props
import Verif.Curve.AModel
import Verif.Curve.AProps
import Verif.Curve.Model
import Verif.Curve.Props
import Verif.Curve.RProps
import Verif.DSet.Inv
import Verif.DSet.Kruskal
import Verif.DSet.Lemmas
import Verif.DSet.Model
import Verif.DSet.Objects
import Verif.DSet.Props
import Verif.DSet.Spec
import Verif.Dual.Model
import Verif.Dual.Props
import Verif.Dyn.Arbitrary
import Verif.Dyn.Lemmas
import Verif.Dyn.Model
import Verif.Dyn.Props
import Verif.Geo.Area
import Verif.Geo.Circle
import Verif.Geo.CircleLine
import Verif.Geo.Cross
import Verif.Geo.Ellipse
import Verif.Geo.Nearest
import Verif.Geo.Polygon
import Verif.Geo.Rect
import Verif.Geo.RectLine
import Verif.Geo.Sector
import Verif.Geo.SectorLine
import Verif.Geo.SectorPair
import Verif.Geo.Sphere
import Verif.Graph.Bfs
import Verif.Graph.BfsProps
import Verif.Graph.Circulation
import Verif.Graph.Matrix
import Verif.Graph.Model
import Verif.Graph.Objects
import Verif.Graph.Props
import Verif.Graph.PushRelabel
import Verif.Hash.Keys
import Verif.Hash.Lemmas
import Verif.Hash.Life
import Verif.Hash.Model
import Verif.Hash.Probe
import Verif.Hash.Props
import Verif.Hash.Spec
import Verif.Heap.Lemmas
import Verif.Heap.Lemmas2
import Verif.Heap.Model
import Verif.Heap.PModel
import Verif.Heap.PObjects
import Verif.Heap.PProps
import Verif.Heap.Props
import Verif.Heap.SModel
import Verif.Heap.SProps
import Verif.Heap.Spec
import Verif.Ini.Model
import Verif.Ini.Props
import Verif.Ini.Spec
import Verif.IniDoc.CopyProps
import Verif.IniDoc.DocView
import Verif.IniDoc.Edit
import Verif.IniDoc.EditProps
import Verif.IniDoc.EditSpec
import Verif.IniDoc.EntryText
import Verif.IniDoc.Group
import Verif.IniDoc.GroupProps
import Verif.IniDoc.MemView
import Verif.IniDoc.Parse
import Verif.IniDoc.ParseProps
import Verif.IniDoc.Spec
import Verif.IniDoc.Split
import Verif.IniDoc.Text
import Verif.IniDoc.TextOps
import Verif.IniEnt.Entry
import Verif.IniEnt.Store
import Verif.Itoa.Model
import Verif.Itoa.Props
import Verif.Json.Model
import Verif.Json.Props
import Verif.Json.Typed
import Verif.Json.TypedProps
import Verif.Linked.ArrModel
import Verif.Linked.ArrObjects
import Verif.Linked.Chain
import Verif.Linked.Lemmas
import Verif.Linked.Model
import Verif.Linked.PropsArr
import Verif.Linked.PropsLL
import Verif.Linked.PropsList
import Verif.Log.Entry
import Verif.Log.Model
import Verif.Log.Props
import Verif.Log.Refine
import Verif.Log.Spec
import Verif.Num.FastSqrt
import Verif.Num.Model
import Verif.Num.Props
import Verif.Own.Model
import Verif.Own.Props
import Verif.Own.Singleton
import Verif.Prof.Flat
import Verif.Prof.Measure
import Verif.Prof.Model
import Verif.Prof.Props
import Verif.Prof.Spec
import Verif.Prof.Tree
import Verif.Ptr.Owner
import Verif.Ptr.RefCount
import Verif.Random.AliasObjects
import Verif.Random.Engine
import Verif.Random.Model
import Verif.Random.Props
import Verif.Random.Rand
import Verif.Random.Ziggurat
import Verif.Rational.Lemmas
import Verif.Rational.Model
import Verif.Rational.Props
import Verif.Sorted.Lemmas
import Verif.Sorted.MapLemmas
import Verif.Sorted.Model
import Verif.Sorted.Props
import Verif.Sorted.Spec
import Verif.Spatial.KDProps
import Verif.Spatial.KDTree
import Verif.Spatial.Poisson
import Verif.Spatial.Subdivide
import Verif.Str.Build
import Verif.Str.ByteSearch
import Verif.Str.Conv
import Verif.Str.Strtok
import Verif.Str.StrtokProps
import Verif.Str.Table
import Verif.Str.TableProps
import Verif.Stream.Func
import Verif.Stream.Model
import Verif.Stream.Props
import Verif.Stream.ReadOnly
import Verif.Sync.LocklessQueue
import Verif.Sync.LocklessQueueProps
import Verif.Sync.MicroDestroy
import Verif.Sync.MicroLockQueue
import Verif.Sync.MicroLockQueueProps
import Verif.Sync.QueueDestroy
import Verif.Sync.RWLock
import Verif.Sync.ThreadPool
import Verif.Sync.ThreadPoolProps
import Verif.Sys.Bits
import Verif.Sys.Cpu
import Verif.Sys.Delegate
import Verif.Sys.Font
import Verif.Sys.Reg
import Verif.Sys.RegValue
import Verif.Sys.Thread
import Verif.Sys.Timer
import Verif.TRB.Check
import Verif.TRB.Lemmas
import Verif.TRB.Model
import Verif.TRB.Props
import Verif.TRB.Thread
import Verif.Text.Args
import Verif.Text.Basic
import Verif.Text.Format
import Verif.Text.Line
import Verif.Text.Model
import Verif.Text.Props
import Verif.Text.Spec
import Verif.Text.Split
import Verif.Toml.Date
import Verif.Toml.Grammar
import Verif.Toml.Model
import Verif.Toml.Props
import Verif.Toml.Read
import Verif.Toml.Scalars
import Verif.Toml.Total
import Verif.Toml.Values
import Verif.Toml.Write
import Verif.TreeBfs.Model
import Verif.TreeBfs.Props
import Verif.Trie.Build
import Verif.Trie.Init
import Verif.Trie.Lemmas
import Verif.Trie.Model
import Verif.Trie.Props
import Verif.Ubjson.Lemmas
import Verif.Ubjson.Model
import Verif.Ubjson.Props
import Verif.Ubjson.Typed
import Verif.Ubjson.TypedProps
import Verif.Utf.Decode
import Verif.Utf.Lemmas
import Verif.Utf.Model
import Verif.Utf.Props
import Verif.Utf.Spec
import Verif.Var.Model
import Verif.Var.Props
import Verif.Var.Serial
import Verif.Var.Spec
import Verif.Vec.Compare
import Verif.Vec.Geometry
import Verif.Vec.Inverse
import Verif.Vec.Lanes
import Verif.Vec.Matrix
import Verif.Vec.Multiply
import Verif.Vec.Ops
import Verif.Vec.Quaternion
import Verif.Vec.Transform
import Verif.Xml.Edit
import Verif.Xml.Ends
import Verif.Xml.Model
import Verif.Xml.Objects
import Verif.Xml.Parse
import Verif.Xml.Props
import Verif.Xml.Spec
import Verif.Xml.Typed
import Verif.Xml.TypedProps
