import Verif.Arith.Lemmas
import Verif.Arith.Model
import Verif.Arith.Props
import Verif.Assign.Lemmas
import Verif.Assign.Model
import Verif.Assign.Props
import Verif.Assign.Spec
import Verif.Async.Heap
import Verif.Async.Lemmas
import Verif.Async.Model
import Verif.Async.Props
import Verif.Async.Queue
import Verif.Async.Spec
import Verif.Base.Order
import Verif.Base.Out
import Verif.Bisect.Model
import Verif.Bisect.Props
import Verif.Bltin.Lemmas
import Verif.Bltin.Model
import Verif.Bltin.Props
import Verif.Bltin.Spec
import Verif.Bounds.Main
import Verif.Bounds.Model
import Verif.Bounds.Props
import Verif.Bounds.Spec
import Verif.Bounds.Terms
import Verif.Bounds.Trace
import Verif.Bounds.Witness
import Verif.C3.Model
import Verif.C3.Props
import Verif.CallArgs.Model
import Verif.CallArgs.OrderModel
import Verif.CallArgs.OrderProps
import Verif.CallArgs.Partial
import Verif.CallArgs.Props
import Verif.Canon.Lemmas
import Verif.Canon.Model
import Verif.Canon.Props
import Verif.Canon.Spec
import Verif.CatOpt.Lemmas
import Verif.CatOpt.Model
import Verif.CatOpt.Props
import Verif.CatOpt.Spec
import Verif.Compr.Lemmas
import Verif.Compr.Model
import Verif.Compr.Props
import Verif.Compr.Spec
import Verif.CounterM.Lemmas
import Verif.CounterM.Model
import Verif.CounterM.MostCommon
import Verif.CounterM.Props
import Verif.Ctl.Code
import Verif.Ctl.Loops
import Verif.Ctl.Model
import Verif.Ctl.Pattern
import Verif.Ctl.Props
import Verif.Ctl.Reject
import Verif.Ctl.Sim
import Verif.Ctl.Spec
import Verif.Ctl.Unroll
import Verif.Date.Cal
import Verif.Date.Model
import Verif.Date.Pack
import Verif.Date.Props42
import Verif.Date.Props43
import Verif.Date.Spec
import Verif.Dce.Determ
import Verif.Dce.Lemmas
import Verif.Dce.Model
import Verif.Dce.Props
import Verif.Dce.Purity
import Verif.Dce.Simul
import Verif.Dce.Sound
import Verif.Dce.Spec
import Verif.Dce.TrimDce
import Verif.Demote.Lemmas
import Verif.Demote.Model
import Verif.Demote.Props
import Verif.Demote.Sim
import Verif.Demote.Spec
import Verif.Deque.Lemmas
import Verif.Deque.Model
import Verif.Deque.Props
import Verif.Deque.Spec
import Verif.Esc.Model
import Verif.Esc.Props
import Verif.Exc.Leb
import Verif.Exc.Model
import Verif.Exc.Props
import Verif.Exc.Route
import Verif.Exc.RouteModel
import Verif.Exc.TryLemmas
import Verif.Exc.TryMain
import Verif.Exc.TryModel
import Verif.Exc.TryProps
import Verif.Exc.TrySim
import Verif.Exc.TrySpec
import Verif.Exc.TryTransit
import Verif.FileM.Lemmas
import Verif.FileM.Model
import Verif.FileM.Props
import Verif.FileM.Readers
import Verif.FileM.Spec
import Verif.Flow.BitSet
import Verif.Flow.CfgExec
import Verif.Flow.CfgInd
import Verif.Flow.CfgMain
import Verif.Flow.CfgModel
import Verif.Flow.CfgOk
import Verif.Flow.CfgParts
import Verif.Flow.CfgProps
import Verif.Flow.CfgSound
import Verif.Flow.CfgSpec
import Verif.Flow.CfgTry
import Verif.Flow.CfgViol
import Verif.Flow.CfgWalk
import Verif.Flow.DomModel
import Verif.Flow.DomProps
import Verif.Flow.ReachModel
import Verif.Flow.ReachProps
import Verif.Fold.Model
import Verif.Fold.Props
import Verif.ForLow.Backward
import Verif.ForLow.Forward
import Verif.ForLow.Lemmas
import Verif.ForLow.Model
import Verif.ForLow.Pass
import Verif.ForLow.Props
import Verif.Fuse.Lemmas
import Verif.Fuse.Model
import Verif.Fuse.Props
import Verif.Fuse.Spec
import Verif.Gen.Lemmas
import Verif.Gen.Model
import Verif.Gen.Props
import Verif.Gen.Spec
import Verif.Getopt.Lemmas
import Verif.Getopt.Model
import Verif.Getopt.Props
import Verif.Getopt.Spec
import Verif.HeapN.Lemmas
import Verif.HeapN.Merge
import Verif.HeapN.Model
import Verif.HeapN.Oks
import Verif.HeapN.Props
import Verif.HeapN.Spec
import Verif.HeapN.Top
import Verif.Heapq.Lemmas
import Verif.Heapq.Model
import Verif.Heapq.Props
import Verif.Inl.Back
import Verif.Inl.Lemmas
import Verif.Inl.Model
import Verif.Inl.Props
import Verif.Inl.Spec
import Verif.Inl.Tail
import Verif.IntN.Lemmas
import Verif.IntN.Model
import Verif.IntN.Props
import Verif.IntStr.Lemmas
import Verif.IntStr.Model
import Verif.IntStr.Parse
import Verif.IntStr.Props
import Verif.IntStr.Spec
import Verif.IntStr.Top
import Verif.Iter.CombLemmas
import Verif.Iter.CombModel
import Verif.Iter.CombProps
import Verif.Iter.PermProps
import Verif.Iter.StreamModel
import Verif.Iter.StreamProps
import Verif.KHash.Flags
import Verif.KHash.FusionModel
import Verif.KHash.Inv
import Verif.KHash.Model
import Verif.KHash.Probe
import Verif.KHash.Props
import Verif.KHash.Rel
import Verif.KHash.Resize
import Verif.KHash.SetLemmas
import Verif.KHash.SetModel
import Verif.KHash.SetProps
import Verif.KHash.SetSpec
import Verif.KHash.Spec
import Verif.ListM.Lemmas
import Verif.ListM.Model
import Verif.ListM.Props
import Verif.ListM.Slices
import Verif.ListM.Spec
import Verif.MathM.Model
import Verif.MathM.Props
import Verif.NpApp.Lemmas
import Verif.NpApp.Model
import Verif.NpApp.Props
import Verif.NpApp.Spec
import Verif.NpBits.Lemmas
import Verif.NpBits.Model
import Verif.NpBits.Props
import Verif.NpBits.Spec
import Verif.NpBus.Lemmas
import Verif.NpBus.Model
import Verif.NpBus.Props
import Verif.NpBus.Spec
import Verif.NpCal.Lemmas
import Verif.NpCal.Model
import Verif.NpCal.Props
import Verif.NpCal.Spec
import Verif.NpFuse.Bc
import Verif.NpFuse.Flat
import Verif.NpFuse.Main
import Verif.NpFuse.Model
import Verif.NpFuse.Pass
import Verif.NpFuse.Plain
import Verif.NpFuse.Props
import Verif.NpFuse.Seq
import Verif.NpFuse.Spec
import Verif.NpFuse.Step
import Verif.NpFwd.Block
import Verif.NpFwd.Lemmas
import Verif.NpFwd.Model
import Verif.NpFwd.Props
import Verif.NpFwd.Spec
import Verif.NpIdx.Adv
import Verif.NpIdx.Basic
import Verif.NpIdx.Comp
import Verif.NpIdx.Mask
import Verif.NpIdx.Model
import Verif.NpIdx.Place
import Verif.NpIdx.Props
import Verif.NpIdx.Put
import Verif.NpIdx.Spec
import Verif.NpIdx.Take
import Verif.NpIns.Lemmas
import Verif.NpIns.Model
import Verif.NpIns.Props
import Verif.NpIns.Spec
import Verif.NpLine.Flat
import Verif.NpLine.Lemmas
import Verif.NpLine.Model
import Verif.NpLine.Props
import Verif.NpLine.Spec
import Verif.NpRearr.Lemmas
import Verif.NpRearr.Model
import Verif.NpRearr.Props
import Verif.NpRearr.Spec
import Verif.NpRed.Axes
import Verif.NpRed.Claim
import Verif.NpRed.Law
import Verif.NpRed.Laws
import Verif.NpRed.Lemmas
import Verif.NpRed.Model
import Verif.NpRed.Props
import Verif.NpRed.Reduce
import Verif.NpRed.Spec
import Verif.NpRed.Visit
import Verif.NpRed.Weave
import Verif.NpSel.Cut
import Verif.NpSel.Intro
import Verif.NpSel.Line
import Verif.NpSel.Model
import Verif.NpSel.Pivot
import Verif.NpSel.Props
import Verif.NpSel.Select
import Verif.NpSel.Spec
import Verif.NpSort.Gallop
import Verif.NpSort.Heap
import Verif.NpSort.Merge
import Verif.NpSort.Model
import Verif.NpSort.Props
import Verif.NpSort.Quick
import Verif.NpSort.Radix
import Verif.NpSort.Runs
import Verif.NpSort.Spec
import Verif.NpSort.Stable
import Verif.NpSrch.Lemmas
import Verif.NpSrch.Model
import Verif.NpSrch.Props
import Verif.NpSrch.Spec
import Verif.Numpy.ApplyLemmas
import Verif.Numpy.CallLemmas
import Verif.Numpy.CopyLemmas
import Verif.Numpy.FixLemmas
import Verif.Numpy.FlatProps
import Verif.Numpy.Lemmas
import Verif.Numpy.LoopLemmas
import Verif.Numpy.LoopModel
import Verif.Numpy.LoopProps
import Verif.Numpy.LoopRun
import Verif.Numpy.LoopSpec
import Verif.Numpy.LoopVisits
import Verif.Numpy.Model
import Verif.Numpy.PermLemmas
import Verif.Numpy.ReshapeLemmas
import Verif.Numpy.ReshapeModel
import Verif.Numpy.ReshapeProps
import Verif.Numpy.ReshapeSpec
import Verif.Numpy.Spec
import Verif.Numpy.UfuncLemmas
import Verif.Numpy.UfuncModel
import Verif.Numpy.UfuncProps
import Verif.Numpy.UfuncSpec
import Verif.Numpy.VecLemmas
import Verif.Numpy.ViewLemmas
import Verif.Numpy.ViewModel
import Verif.Numpy.ViewProps
import Verif.Numpy.ViewSpec
import Verif.Omp.Collapse
import Verif.Omp.Lemmas
import Verif.Omp.Model
import Verif.Omp.Props
import Verif.Omp.Spec
import Verif.Operator.Lemmas
import Verif.Operator.Model
import Verif.Operator.Props
import Verif.Operator.Spec
import Verif.PassMgr.Hist
import Verif.PassMgr.Lemmas
import Verif.PassMgr.Model
import Verif.PassMgr.Props
import Verif.PassMgr.Run
import Verif.PassMgr.Spec
import Verif.PassMgr.Standard
import Verif.Pickle.Basic
import Verif.Pickle.Comb
import Verif.Pickle.Dicts
import Verif.Pickle.Model
import Verif.Pickle.NdLemmas
import Verif.Pickle.NdModel
import Verif.Pickle.Props
import Verif.Pickle.Sets
import Verif.Pickle.Spec
import Verif.Pickle.Tables
import Verif.PowM.Lemmas
import Verif.PowM.Model
import Verif.PowM.Props
import Verif.Random.Lemmas
import Verif.Random.Lists
import Verif.Random.Model
import Verif.Random.Props
import Verif.Random.Range
import Verif.Random.Spec
import Verif.Rx.Lemmas
import Verif.Rx.Model
import Verif.Rx.Props
import Verif.Rx.Spec
import Verif.RxT.Lemmas
import Verif.RxT.Model
import Verif.RxT.Props
import Verif.RxT.Spec
import Verif.Scope.Context
import Verif.Scope.Crit
import Verif.Scope.Dyn
import Verif.Scope.Future
import Verif.Scope.Groups
import Verif.Scope.Loops
import Verif.Scope.Model
import Verif.Scope.Props
import Verif.Scope.Read
import Verif.Scope.Run
import Verif.Scope.RunBlocks
import Verif.Scope.RunLoops
import Verif.Scope.Sim
import Verif.Scope.Spec
import Verif.Scope.Static
import Verif.Scope.Steps
import Verif.Scope.Visit
import Verif.Scope.Walk
import Verif.Scope.Whole
import Verif.Slice.Lemmas
import Verif.Slice.Machine
import Verif.Slice.Model
import Verif.Slice.Props
import Verif.Slice.Spec
import Verif.Sort.Base
import Verif.Sort.Heap
import Verif.Sort.Insertion
import Verif.Sort.Model
import Verif.Sort.Pdq
import Verif.Sort.Props
import Verif.Sort.Quick
import Verif.Sort.Tim
import Verif.Sort.TimMerge
import Verif.Sort.TimRuns
import Verif.SortedList.Lemmas
import Verif.SortedList.Model
import Verif.SortedList.Props
import Verif.SortedList.Spec
import Verif.StaticEval.Model
import Verif.StaticEval.Props
import Verif.Str.FindLemmas
import Verif.Str.FindModel
import Verif.Str.FindProps
import Verif.Str.ReplaceModel
import Verif.Str.ReplaceProps
import Verif.Str.SplitLemmas
import Verif.Str.SplitModel
import Verif.Str.SplitProps
import Verif.StrM.Lemmas
import Verif.StrM.Model
import Verif.StrM.Props
import Verif.StrM.Spec
import Verif.Twister.Lemmas
import Verif.Twister.Model
import Verif.Twister.Props
import Verif.Twister.Seeding
import Verif.Twister.Spec
import Verif.Twister.World
import Verif.Unify.Complete
import Verif.Unify.CompleteProps
import Verif.Unify.GenModel
import Verif.Unify.Lemmas
import Verif.Unify.Model
import Verif.Unify.Props
import Verif.Unify.Sound
import Verif.Unify.Spec
import Verif.Unify.Term
import Verif.WithM.Lemmas
import Verif.WithM.Model
import Verif.WithM.Props
import Verif.WithM.Spec
