import Verif.Model.WayPeers

/-! # Runs of the one-way accelerator among its own -/

namespace Netcode

/-- All addresses can be sent to. -/
def WayWorld.Ok (W : WayWorld) : Prop := W.sender.port ≠ 0 ∧ W.receiver.port ≠ 0 ∧ W.app.port ≠ 0

/-- The states that the sender and the receiver reach, in whatever order things happen and whatever the network loses, repeats and delays. -/
inductive WayReach (c : Cfg 8) (W : WayWorld) : WayNet → Prop
  | init : WayReach c W (WayNet.init c.clk W)
  | step {t t' : WayNet} {a : OneAct} : WayReach c W t → t.step c W (.own a) = .ok t' → WayReach c W t'

/-- Where what is sent should go: packets to the receiver, acks to the sender, data to the application. -/
def WayWorld.right (W : WayWorld) : WayKind → Addr
  | .packet => W.receiver
  | .ack => W.sender
  | .datum => W.app

/-- What was sent of one kind. -/
def WayNet.sent (t : WayNet) (k : WayKind) : List (List Byte) := (t.log.filter (fun m => m.kind = k)).map (·.bytes)

end Netcode
