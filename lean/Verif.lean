import Verif.Props.Probe
import Verif.Model.Ops
import Verif.Props.Tagged
import Verif.Props.Layout
import Verif.Props.Capacity
import Verif.Props.Bounds
import Verif.Props.Stack
import Verif.Props.Parker
import Verif.Proof.Ghost
import Verif.Proof.Basic
import Verif.Proof.ActE
import Verif.Proof.ActMd
import Verif.Proof.ActPub
import Verif.Proof.ActCopy
import Verif.Proof.ActCopied
import Verif.Proof.ActRepl
import Verif.Proof.ActRoot
import Verif.Proof.ActMisc
import Verif.Proof.ActMem
import Verif.Proof.ActAlloc
import Verif.Proof.Rg
import Verif.Proof.Assert
import Verif.Proof.TriBase
import Verif.Proof.TriCopy
import Verif.Proof.TriHelp
import Verif.Proof.TriProm
import Verif.Proof.TriRest
import Verif.Proof.TriGet
import Verif.Proof.WBase
import Verif.Proof.WPub
import Verif.Proof.TriWrite
import Verif.Proof.TriRetry
import Verif.Proof.TriInsert
import Verif.Proof.TriRemove
import Verif.Proof.TriCompute
import Verif.Proof.TriWrap
import Verif.Proof.TriIter
import Verif.Proof.TriIterAll
import Verif.Proof.TriLen
import Verif.Model.Api
import Verif.Model.Pool
import Verif.Spec.Map
import Verif.Spec.Lin
import Verif.Proof.Post
import Verif.Proof.Hist
import Verif.Proof.Move
import Verif.Proof.HistInv
import Verif.Proof.HistStep
import Verif.Proof.Init
import Verif.Proof.PInv
import Verif.Proof.LinBuild
import Verif.Spec.Contents
import Verif.Spec.Memory
import Verif.Props.Memory
import Verif.Props.Lin
import Verif.Props.Ops
import Verif.Exec.Run
import Verif.Exec.Demo
import Verif.Exec.Abort
import Verif.Spec.Quiet
import Verif.Props.Quiet
import Verif.Props.Progress
import Verif.Proof.Finish
import Verif.Proof.FinishOps
import Verif.Proof.FinishInv
import Verif.Model.Drop
import Verif.Props.Drop
import Verif.Props.Panics
import Verif.Spec.Seq
import Verif.Props.Seq
import Verif.Model.Client
import Verif.Exec.Client
import Verif.Props.Client
import Verif.Model.SetApi
import Verif.Spec.SetSpec
import Verif.Props.SetApi
import Verif.Model.Multi
import Verif.Props.Multi
import Verif.Spec.Solo
import Verif.Proof.Observe
import Verif.Proof.Livelock
import Verif.Props.Livelock
import Verif.Proof.Term
import Verif.Proof.TermBase
import Verif.Proof.TermCopy
import Verif.Proof.TermHelp
import Verif.Proof.TermOps
import Verif.Props.Term
import Verif.Proof.Overfull
import Verif.Props.Overfull
import Verif.Proof.TermSettled
import Verif.Props.TermSettled
import Verif.Props.Shared
import Verif.Props.Addr
import Verif.Props.Weak
import Verif.Spec.Deadlock
import Verif.Proof.Work
import Verif.Proof.WorkOps
import Verif.Proof.WorkInv
import Verif.Props.Deadlock
import Verif.Model.Park
import Verif.Spec.Park
import Verif.Proof.Park
import Verif.Proof.ParkWake
import Verif.Props.Park
import Verif.Exec.Park
import Verif.Props.ParkDemo
import Verif.Spec.LockFree
import Verif.Proof.LockFree
import Verif.Proof.LockFreeOps
import Verif.Props.LockFree
import Verif.Props.LockFreeDemo
import Verif.Spec.Reenter
import Verif.Props.Reenter
import Verif.Props.ReenterDemo
import Verif.Proof.Frozen
import Verif.Proof.FrozenOps
import Verif.Proof.FrozenCalls
import Verif.Spec.Growth
import Verif.Proof.Growth
import Verif.Props.Growth
import Verif.Props.GrowthDemo
import Verif.Model.Wrap
import Verif.Proof.Claim
import Verif.Proof.Wrap
import Verif.Exec.Wrap
import Verif.Props.Wrap
import Verif.Spec.Latency
import Verif.Proof.Latency
import Verif.Props.Latency
import Verif.Spec.Thrift
import Verif.Proof.Thrift
import Verif.Props.Thrift
import Verif.Props.Own
import Verif.Props.OwnDemo
import Verif.Props.Poison
import Verif.Props.LenClose
import Verif.Model.Counter
import Verif.Proof.Counter
import Verif.Props.Counter
import Verif.Spec.ClientIn
import Verif.Props.ClientIn
import Verif.Spec.Promote
import Verif.Proof.Promote
import Verif.Props.Promote
import Verif.Spec.Stall
import Verif.Proof.Stall
import Verif.Props.Stall
import Verif.Proof.StallInc
import Verif.Props.StallInc
import Verif.Spec.OwnKey
import Verif.Proof.OwnKey
import Verif.Props.OwnKey
import Verif.Props.SoloKey
