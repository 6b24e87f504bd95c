import Verif.ArgMapping.Coerce
import Verif.ArgMapping.Final
import Verif.ArgMapping.Lemmas
import Verif.ArgMapping.Model
import Verif.ArgMapping.Props
import Verif.ArgMapping.Spec
import Verif.Arith.Lemmas
import Verif.Arith.Model
import Verif.Arith.Props
import Verif.Arith.Spec
import Verif.Arr.Elementwise
import Verif.Arr.Geometry
import Verif.Arr.Loop
import Verif.Arr.Model
import Verif.Arr.Products
import Verif.Arr.Spec
import Verif.Arr.Views
import Verif.Arr.World
import Verif.Ast.Align
import Verif.Ast.Clean
import Verif.Ast.Model
import Verif.Ast.Props
import Verif.Ast.Round
import Verif.Ast.Spec
import Verif.Ast.Tree
import Verif.Ast.Whole
import Verif.Ast.Wrong
import Verif.Builtins.Model
import Verif.Builtins.Props
import Verif.Builtins.Spec
import Verif.Bytes.Find
import Verif.Bytes.Letters
import Verif.Bytes.Methods
import Verif.Bytes.Model
import Verif.Bytes.Numbers
import Verif.Bytes.Order
import Verif.Bytes.Pad
import Verif.Bytes.Replace
import Verif.Bytes.Search
import Verif.Bytes.Spec
import Verif.Bytes.Split
import Verif.Bytes.SplitJoin
import Verif.Bytes.SplitProofs
import Verif.CConv.Agree
import Verif.CConv.AgreeSpec
import Verif.CConv.Basic
import Verif.CConv.Model
import Verif.CConv.Props
import Verif.CConv.Refuse
import Verif.CConv.Sound
import Verif.CConv.Spec
import Verif.CConv.Wrong
import Verif.Cache.Disk
import Verif.Cache.Index
import Verif.Cache.Inv
import Verif.Cache.Load
import Verif.Cache.Model
import Verif.Cache.Names
import Verif.Cache.Props
import Verif.Cache.Refute
import Verif.Cache.Spec
import Verif.Cell.Model
import Verif.Cell.Props
import Verif.Chrono.DateLemmas
import Verif.Chrono.DateModel
import Verif.Chrono.Lemmas
import Verif.Chrono.Model
import Verif.Chrono.Props
import Verif.Chrono.Spec
import Verif.Chrono.TzLemmas
import Verif.Chrono.TzModel
import Verif.Chrono.TzProps
import Verif.Code.Model
import Verif.Code.Props
import Verif.Code.Spec
import Verif.Code.Wrong
import Verif.Common
import Verif.Comp.Model
import Verif.Comp.Props
import Verif.Comp.Refute
import Verif.Comp.Spec
import Verif.Compare.Agree
import Verif.Compare.Compiled
import Verif.Compare.Model
import Verif.Compare.Order
import Verif.Compare.Props
import Verif.Compare.Spec
import Verif.Compare.Total
import Verif.Compare.Types
import Verif.Compare.Wrong
import Verif.ConstDict.Model
import Verif.ConstDict.Props
import Verif.ConstDict.Spec
import Verif.Conv.Examples
import Verif.Conv.Keep
import Verif.Conv.KeepSpec
import Verif.Conv.Model
import Verif.Conv.OneOf
import Verif.Conv.Props
import Verif.Conv.Restore
import Verif.Conv.Spec
import Verif.Conv.Types
import Verif.Conv.Typing
import Verif.Conv.Wrong
import Verif.DateRange.Model
import Verif.DateRange.Props
import Verif.DateText.Format
import Verif.DateText.Iso
import Verif.DateText.Lemmas
import Verif.DateText.Model
import Verif.DateText.Parse
import Verif.DateText.Props
import Verif.DateText.Spec
import Verif.DateText.Words
import Verif.DeepCopy.Copy
import Verif.DeepCopy.Count
import Verif.DeepCopy.Lemmas
import Verif.DeepCopy.Model
import Verif.DeepCopy.Props
import Verif.DeepCopy.Spec
import Verif.DependencyGraph.Model
import Verif.DependencyGraph.Priority
import Verif.DependencyGraph.Props
import Verif.DependencyGraph.Spec
import Verif.DirectedGraph.Edges
import Verif.DirectedGraph.Model
import Verif.DirectedGraph.Props
import Verif.DirectedGraph.Spec
import Verif.DirectedGraph.Walk
import Verif.Flow.Cover
import Verif.Flow.Frame
import Verif.Flow.Good
import Verif.Flow.Loop
import Verif.Flow.Merge
import Verif.Flow.MergeProps
import Verif.Flow.Model
import Verif.Flow.Props
import Verif.Flow.Refute
import Verif.Flow.Sim
import Verif.Flow.Sim2
import Verif.Flow.Spec
import Verif.Flow.Try
import Verif.Flow.Try2
import Verif.Flow.Try3
import Verif.Flow.Types
import Verif.Gen.Calls
import Verif.Gen.ForGood
import Verif.Gen.ForModel
import Verif.Gen.ForProof
import Verif.Gen.ForProps
import Verif.Gen.ForRefute
import Verif.Gen.ForSpec
import Verif.Gen.Good
import Verif.Gen.Limit
import Verif.Gen.Model
import Verif.Gen.Props
import Verif.Gen.Refute
import Verif.Gen.Replay
import Verif.Gen.Resume
import Verif.Gen.Spec
import Verif.Gen.Target
import Verif.Gen.WithProps
import Verif.Gil.Model
import Verif.Gil.Props
import Verif.HashTable.Compiled
import Verif.HashTable.Equality
import Verif.HashTable.Items
import Verif.HashTable.Memory
import Verif.HashTable.Model
import Verif.HashTable.Ops
import Verif.HashTable.Probe
import Verif.HashTable.Props
import Verif.HashTable.SetCompiled
import Verif.HashTable.SetCompiledProps
import Verif.HashTable.SetCompiledWrong
import Verif.HashTable.SetModel
import Verif.HashTable.SetProps
import Verif.HashTable.SetSpec
import Verif.HashTable.SetWrong
import Verif.HashTable.Spec
import Verif.HashTable.Table
import Verif.HeldClass.Model
import Verif.HeldClass.Props
import Verif.HeldClass.Spec
import Verif.Iters.Model
import Verif.Iters.Props
import Verif.Iters.Spec
import Verif.ListOf.Compiled
import Verif.ListOf.CompiledRefine
import Verif.ListOf.Lemmas
import Verif.ListOf.Model
import Verif.ListOf.Props
import Verif.ListOf.Refine
import Verif.ListOf.Slice
import Verif.ListOf.Spec
import Verif.ListOf.TupleSlice
import Verif.Loops.Model
import Verif.Loops.Proof
import Verif.Loops.Props
import Verif.Loops.RangeModel
import Verif.Loops.RangeProps
import Verif.Loops.Refute
import Verif.Loops.Sim
import Verif.Loops.Spec
import Verif.Macro.Model
import Verif.Macro.Props
import Verif.Macro.Spec
import Verif.Macro.Wrong
import Verif.MapReduce.Model
import Verif.MapReduce.Props
import Verif.ModuleOf.Model
import Verif.ModuleOf.Props
import Verif.ModuleOf.Spec
import Verif.ModuleOf.Wrong
import Verif.Mro.Attr
import Verif.Mro.Class
import Verif.Mro.ClassProofs
import Verif.Mro.ClassProps
import Verif.Mro.Dispatch
import Verif.Mro.DispatchClass
import Verif.Mro.DispatchInv
import Verif.Mro.DispatchProofs
import Verif.Mro.DispatchProps
import Verif.Mro.DispatchTable
import Verif.Mro.Merge
import Verif.Mro.Model
import Verif.Mro.Props
import Verif.Mro.Spec
import Verif.Mro.Super
import Verif.Native.Balance
import Verif.Native.Context
import Verif.Native.Frame
import Verif.Native.Function
import Verif.Native.Model
import Verif.Native.Props
import Verif.Native.Shape
import Verif.Native.Sim
import Verif.Native.Slots
import Verif.Native.Spec
import Verif.Native.Syntax
import Verif.Native.Wf
import Verif.Pmap.Frame
import Verif.Pmap.Inv
import Verif.Pmap.Jobs
import Verif.Pmap.Measure
import Verif.Pmap.Model
import Verif.Pmap.Progress
import Verif.Pmap.Props
import Verif.Pmap.Spec
import Verif.Pmap.Steps
import Verif.Ptr.Model
import Verif.Ptr.Props
import Verif.Ptr.Spec
import Verif.Ptr.Wrong
import Verif.PyCmp.Basic
import Verif.PyCmp.Model
import Verif.PyCmp.Props
import Verif.PyCmp.Spec
import Verif.PyCmp.Types
import Verif.PyCmp.Wrong
import Verif.PyDict.Model
import Verif.PyDict.Props
import Verif.PyDict.Spec
import Verif.PyDict.Wrong
import Verif.RawBytes.Model
import Verif.RawBytes.Props
import Verif.Returns.Model
import Verif.Returns.Props
import Verif.Returns.Spec
import Verif.Returns.Wrong
import Verif.Scope.Analysis
import Verif.Scope.Defaults
import Verif.Scope.Model
import Verif.Scope.Once
import Verif.Scope.Props
import Verif.Scope.Rename
import Verif.Scope.Spec
import Verif.Sha.Block
import Verif.Sha.ConstProps
import Verif.Sha.Hashes
import Verif.Sha.Inject
import Verif.Sha.Model
import Verif.Sha.Props
import Verif.Sha.Spec
import Verif.Sha.Stream
import Verif.Sha.ValueProps
import Verif.Sha.ValueSpec
import Verif.Slab.Model
import Verif.Slab.Props
import Verif.Slab.Spec
import Verif.SortedDict.Lemmas
import Verif.SortedDict.Model
import Verif.SortedDict.Props
import Verif.SortedDict.Remove
import Verif.SortedDict.Spec
import Verif.Sorting.Lemmas
import Verif.Sorting.Model
import Verif.Sorting.Props
import Verif.Sorting.Spec
import Verif.Source.Cases
import Verif.Source.Model
import Verif.Source.Order
import Verif.Source.Props
import Verif.Source.Spec
import Verif.Source.Wrong
import Verif.Str.Affix
import Verif.Str.Case
import Verif.Str.Compare
import Verif.Str.FloatSpec
import Verif.Str.Model
import Verif.Str.Props
import Verif.Str.Search
import Verif.Str.Slice
import Verif.Str.Spec
import Verif.Str.Split
import Verif.Str.SplitModel
import Verif.Str.SplitProofs
import Verif.Str.SplitWords
import Verif.Str.ToFloat
import Verif.Str.ToInt
import Verif.Str.Utf8
import Verif.Stream.Finish
import Verif.Stream.Inv
import Verif.Stream.Model
import Verif.Stream.Props
import Verif.Stream.Reader
import Verif.Stream.Serial
import Verif.Stream.Spec
import Verif.Stream.Steps
import Verif.Stream.Workers
import Verif.SubclassOf.Model
import Verif.SubclassOf.Props
import Verif.TempRef.Model
import Verif.TempRef.Props
import Verif.TupleOf.Model
import Verif.TupleOf.Props
import Verif.TupleOf.Spec
import Verif.TypeFn.Keys
import Verif.TypeFn.Model
import Verif.TypeFn.Props
import Verif.TypeFn.Spec
import Verif.TypeFn.Steps
import Verif.TypeFn.Wrong
import Verif.TypeGroup.Build
import Verif.TypeGroup.Code
import Verif.TypeGroup.Examples
import Verif.TypeGroup.Hash
import Verif.TypeGroup.Ideal
import Verif.TypeGroup.Iso
import Verif.TypeGroup.Model
import Verif.TypeGroup.Order
import Verif.TypeGroup.Props
import Verif.TypeGroup.Root
import Verif.TypeGroup.Search
import Verif.TypeGroup.Spec
import Verif.TypeGroup.Steps
import Verif.TypeGroup.View
import Verif.TypeGroup.Wrong
import Verif.Typed.Cases
import Verif.Typed.Damaged
import Verif.Typed.DamagedErr
import Verif.Typed.DamagedProps
import Verif.Typed.DamagedSpec
import Verif.Typed.DamagedType
import Verif.Typed.Evolve
import Verif.Typed.EvolveMsg
import Verif.Typed.EvolveProps
import Verif.Typed.EvolveSpec
import Verif.Typed.Ints
import Verif.Typed.Model
import Verif.Typed.Pod
import Verif.Typed.Props
import Verif.Typed.Round
import Verif.Typed.Spec
import Verif.Typed.Steps
import Verif.Typed.Total
import Verif.TypedQueue.Examples
import Verif.TypedQueue.Lemmas
import Verif.TypedQueue.Model
import Verif.TypedQueue.Props
import Verif.TypedQueue.Sim
import Verif.TypedQueue.Spec
import Verif.TypedQueue.Steps
import Verif.Wire.Model
import Verif.Wire.Props
import Verif.Wire.Spec
