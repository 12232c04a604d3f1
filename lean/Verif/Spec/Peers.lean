import Verif.Model.Peers

/-! # Runs of the tunnel among its own -/

namespace Netcode

/-- All addresses can be sent to. -/
def World.Ok (W : World) : Prop := ∀ x, (W.tunnel x).port ≠ 0 ∧ (W.app x).port ≠ 0

/-- The application of the server speaks only once it was spoken to. -/
def Answers (t : Net) : TunAct → Prop
  | .app true _ => (t.tun.side true).dec.data ≠ []
  | _ => True

/-- The states that the two sides and their two applications reach, in whatever order things happen and whatever the network loses, repeats
and delays. -/
inductive NetReach (c : Cfg 8) (W : World) : Net → Prop
  | init : NetReach c W (Net.init c.clk W)
  | step {t t' : Net} {a : TunAct} : NetReach c W t → Answers t a → t.step c W (.own a) = .ok t' → NetReach c W t'

/-- Where a datagram should go. -/
def World.right (W : World) (m : Datagram) : Addr := if m.tunnel then W.tunnel (!m.side) else W.app m.side

end Netcode
