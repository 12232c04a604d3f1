import Verif.Model.Basic
import Verif.Model.GF
import Verif.Model.GFConcrete
import Verif.Model.Matrix
import Verif.Model.Wire
import Verif.Model.Encoder
import Verif.Model.Decoder
import Verif.Proofs.GFConcrete
import Verif.Proofs.GFField
import Verif.Proofs.Region
import Verif.Proofs.Matrix
import Verif.Model.NDecoder
import Verif.Model.System
import Verif.Proofs.Wire
import Verif.Proofs.OMap
import Verif.Proofs.Encode
import Verif.Proofs.DecPrim
import Verif.Proofs.DecLog
import Verif.Proofs.DecInv
import Verif.Proofs.DecFull
import Verif.Proofs.DecStep
import Verif.Proofs.DecRepair
import Verif.Spec.Basic
import Verif.Spec.Schedule
import Verif.Proofs.DecFrame
import Verif.Proofs.EncInv
import Verif.Proofs.SysInv
import Verif.Proofs.SysStep
import Verif.Spec.Observe
import Verif.Proofs.Check
import Verif.Proofs.SysFacts
import Verif.Props.System
import Verif.Props.Defects
import Verif.Proofs.Notify
import Verif.Proofs.WireIff
import Verif.Props.Wire
import Verif.Spec.Algebra
import Verif.Proofs.Algebra
import Verif.Props.Field
import Verif.Spec.EncHist
import Verif.Proofs.EncHist
import Verif.Props.Encoder
import Verif.Spec.Rank
import Verif.Proofs.Rank
import Verif.Proofs.DecAny
import Verif.Proofs.DecMode
import Verif.Spec.DecHist
import Verif.Proofs.DecHist
import Verif.Proofs.DecTwin
import Verif.Spec.Depth
import Verif.Proofs.Depth
import Verif.Proofs.DecProps
import Verif.Proofs.Failed
import Verif.Props.Decoder
import Verif.Proofs.Hostile
import Verif.Props.Hostile
import Verif.Spec.Lossless
import Verif.Proofs.Lossless
import Verif.Proofs.LosslessCheck
import Verif.Props.Lossless
import Verif.Model.Packet
import Verif.Spec.Packet
import Verif.Props.Packet
import Verif.Model.CApi
import Verif.Spec.CApi
import Verif.Props.CApi
import Verif.Model.Float
import Verif.Proofs.Float
import Verif.Proofs.FloatRate
import Verif.Spec.Settings
import Verif.Proofs.Settings
import Verif.Props.Settings
import Verif.Proofs.DecLow
import Verif.Props.Window
import Verif.Proofs.Ordered
import Verif.Spec.Late
import Verif.Proofs.Late
import Verif.Proofs.LateCheck
import Verif.Props.Late
import Verif.Spec.Trail
import Verif.Proofs.Trail
import Verif.Props.Trail
import Verif.Model.Handlers
import Verif.Spec.Handlers
import Verif.Proofs.Handlers
import Verif.Props.Handlers
import Verif.Model.Reenter
import Verif.Spec.Reenter
import Verif.Proofs.Reenter
import Verif.Props.Reenter
import Verif.Model.Tunnel
import Verif.Spec.Tunnel
import Verif.Proofs.Tunnel
import Verif.Props.Tunnel
import Verif.Spec.Layout
import Verif.Proofs.Layout
import Verif.Props.Layout
import Verif.Props.Sync
import Verif.Spec.OtherRun
import Verif.Proofs.OtherRun
import Verif.Props.OtherRun
import Verif.Proofs.Dependent
import Verif.Props.Stuck
import Verif.Model.OneWay
import Verif.Spec.Via
import Verif.Spec.OneWay
import Verif.Proofs.Via
import Verif.Proofs.OneWay
import Verif.Props.Via
import Verif.Props.OneWay
import Verif.Proofs.Clash
import Verif.Props.Clash
import Verif.Proofs.Both
import Verif.Proofs.DecOld
import Verif.Props.Old
import Verif.Spec.Line
import Verif.Proofs.Line
import Verif.Props.Line
import Verif.Model.Tools
import Verif.Spec.Tools
import Verif.Props.Tools
import Verif.Props.Forward
import Verif.Props.Memory
import Verif.Model.AckThrow
import Verif.Props.AckThrow
import Verif.Props.Wrap
import Verif.Props.Adaptive
import Verif.Props.DataCalls
import Verif.Model.EndToEnd
import Verif.Spec.Gapless
import Verif.Spec.EndToEnd
import Verif.Proofs.Gapless
import Verif.Proofs.EndToEnd
import Verif.Props.Gapless
import Verif.Props.EndToEnd
import Verif.Spec.OneLoss
import Verif.Proofs.OneLoss
import Verif.Props.OneLoss
import Verif.Model.BasicEx
import Verif.Proofs.BasicEx
import Verif.Props.BasicEx
import Verif.Model.Restart
import Verif.Spec.Restart
import Verif.Proofs.Restart
import Verif.Props.Restart
import Verif.Spec.Wait
import Verif.Proofs.Wait
import Verif.Props.Wait
import Verif.Props.Length
import Verif.Model.CProg
import Verif.Spec.CProg
import Verif.Props.CProg
import Verif.Model.Multi
import Verif.Spec.Multi
import Verif.Props.Multi
import Verif.Model.Mixed
import Verif.Spec.Mixed
import Verif.Props.Mixed
import Verif.Spec.Named
import Verif.Proofs.Keep
import Verif.Props.Keep
import Verif.Proofs.AnySched
import Verif.Props.AnySched
import Verif.Model.Replay
import Verif.Spec.Replay
import Verif.Props.Replay
import Verif.Model.AckCalls
import Verif.Spec.AckCalls
import Verif.Proofs.AckCalls
import Verif.Props.AckCalls
import Verif.Model.AckPeriod
import Verif.Spec.AckPeriod
import Verif.Proofs.AckPeriod
import Verif.Props.AckPeriod
import Verif.Spec.Ends
import Verif.Proofs.Ends
import Verif.Props.Ends
import Verif.Proofs.Gap
import Verif.Props.Gap
import Verif.Spec.Crafted
import Verif.Proofs.Crafted
import Verif.Props.Crafted
import Verif.Spec.Faults
import Verif.Proofs.Faults
import Verif.Props.Faults
import Verif.Spec.EncSafe
import Verif.Props.EncSafe
import Verif.Proofs.Count
import Verif.Props.Count
import Verif.Model.Generator
import Verif.Props.Generator
import Verif.Spec.AckOrder
import Verif.Props.AckOrder
import Verif.Model.Main
import Verif.Spec.Main
import Verif.Props.Main
import Verif.Model.Peers
import Verif.Spec.Peers
import Verif.Props.Peers
import Verif.Model.ByteOrder
import Verif.Model.ByteOrderDec
import Verif.Spec.ByteOrder
import Verif.Proofs.SwapList
import Verif.Proofs.SwapDec
import Verif.Proofs.SwapSys
import Verif.Proofs.SwapSrc
import Verif.Props.ByteOrder
import Verif.Props.AckForm
import Verif.Model.NoMem
import Verif.Spec.NoMem
import Verif.Props.NoMem
import Verif.Model.WayPeers
import Verif.Spec.WayPeers
import Verif.Props.WayPeers
import Verif.Proofs.AckIds
import Verif.Spec.AckThrow
import Verif.Props.AckThrowRun
import Verif.Props.NoMemLate
import Verif.Model.NoMemDecode
import Verif.Props.NoMemDecode
import Verif.Proofs.DecCover
import Verif.Props.Cover
import Verif.Props.RepairWrap
import Verif.Proofs.CraftedKept
import Verif.Props.CraftedKept
import Verif.Conform.Detail
import Verif.Conform.Api
import Verif.Conform.Rest
