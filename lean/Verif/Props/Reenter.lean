import Verif.Proofs.Reenter
import Verif.Props.System

/-!
# C58: calls from within the packet handler of an encoder
-/

namespace Netcode

variable {w : Nat}

/-- **C58, in part.** The packet handler of the encoder may, at the end of each packet, deliver packets to the decoder, give acks to
the encoder, ask for repairs and change settings: whatever it does, the state is one that the same kinds of calls reach without any call
from within the handler, so all that is proved of those states holds (`C01` to `C05` and all others on `Reach`).
Missing: commits from within the handler; an automatic repair that is due when the handler has emptied the window. -/
theorem C58_same_states_partial {c : Cfg w} (hc : c.Ok) {io : Bool} {x : Sys × Phase} (h : ReachR c io x) : Reach c io (outside x) :=
  reachR_reach hc h

/-- **C58, in part.** No such call meets undefined behaviour or a failed assertion. -/
theorem C58_no_fault_partial {c : Cfg w} (hc : c.Ok) {io : Bool} {x : Sys × Phase} (h : ReachR c io x) (a : RAct) (ha : AllowedR c x a) :
    ∃ x', Sys.stepR c x a = .ok x' := by
  obtain ⟨x', h1, -⟩ := stepR_ok hc (reachR_reach hc h) a ha
  exact ⟨x', h1⟩

/-- **C58, in part.** Whatever the handler does, the decoder hands over data that were given to the encoder, each at most as often as it was
given, and in order when it delivers in order. -/
theorem C58_data_partial {c : Cfg w} (hc : c.Ok) {io : Bool} {x : Sys × Phase} (h : ReachR c io x) :
    (∀ d ∈ x.1.dec.data, d ∈ x.1.committed) ∧ (∀ d, x.1.dec.data.count d ≤ x.1.committed.count d) ∧
    (io = true → x.1.dec.data.Sublist x.1.committed) := by
  have hr := reachR_reach hc h
  have e1 : (outside x).dec.data = x.1.dec.data ∧ (outside x).committed = x.1.committed := by
    obtain ⟨s, ph⟩ := x
    cases ph <;> exact ⟨rfl, rfl⟩
  rw [← e1.1, ← e1.2]
  refine ⟨C01_integrity_partial hc hr, C02_at_most_once_partial hc hr, ?_⟩
  rintro rfl
  exact C03_in_order_partial hc hr

/-- A commit in which the handler makes no call is a commit. -/
theorem C58_model (c : Cfg w) (s : Sys) (d : List Byte) :
    Sys.runR c (s, .idle) [.begin d, .ret, .ret] = (s.step c (.commit d)).map (fun s => (s, .idle)) := by
  simp only [Sys.runR, List.foldlM_cons, List.foldlM_nil, Sys.stepR, Sys.step, commit_eq]
  cases s.enc.commitBegin c.gf c.dbg d with
  | error f => rfl
  | ok e =>
    simp only [bind, Except.bind, pure, Except.pure, Enc.autoRepair, Enc.due, ensure]
    cases e.rate != 0 with
    | false => rfl
    | true =>
      simp only [if_true]
      by_cases h : (e.curSrc + 1) % 2 ^ 32 % e.rate = 0
      · simp only [h, decide_true, if_true]
        cases e.generateRepair c.gf c.dbg <;> rfl
      · simp only [h, decide_false, if_false]
        rfl

/-- The packet handler gives each packet to the decoder and an ack to the encoder. -/
def loopback : List RAct :=
  [.api (.setRate 2), .begin [1], .api (.deliver 0), .ret, .begin [2], .api (.deliver 1), .ret, .api (.deliver 2),
   .api .genAck, .api (.ack 0), .ret, .begin [3, 4], .api (.deliver 3), .api .genAck, .api (.setSystematic false), .ret, .begin [5], .api (.deliver 4)]
example : (runAllowedR (cfg8 true) (Sys.init (cfg8 true).clk true, .idle) loopback).map
    (fun x => (x.1.dec.data, x.1.enc.window, x.2)) = some ([[1], [2], [3, 4], [5]], 2, .first) := by decide +kernel
example : ∃ x, ReachR (cfg8 true) true x ∧ x.1.dec.data = [[1], [2], [3, 4], [5]] ∧ x.2 = .first := by
  have h : (runAllowedR (cfg8 true) (Sys.init (cfg8 true).clk true, .idle) loopback).map
    (fun x => (x.1.dec.data, x.2)) = some ([[1], [2], [3, 4], [5]], .first) := by decide +kernel
  obtain ⟨x, hx, he⟩ := Option.map_eq_some_iff.1 h
  simp only [Prod.mk.injEq] at he
  exact ⟨x, reachR_of_run loopback .init hx, he.1, he.2⟩

/-- The packet handler gives the packet to the decoder, and the ack of the decoder to the encoder; an automatic repair is
due. -/
def loopbackAck : List RAct :=
  [.api (.setRate 1), .begin [1], .api (.deliver 0), .api .genAck, .api (.ack 0), .ret]

/-- **C58 fails** when the handler gives the encoder an ack that empties the window and an automatic repair is due: a failed assertion, or
undefined behaviour.  The same calls made after the commit are fine. -/
theorem C58_false_ack (dbg : Bool) :
    Sys.runR (cfg8 dbg) (Sys.init (cfg8 dbg).clk false, .idle) loopbackAck = .error (if dbg then .assertion else .ub .derefEnd) ∧
    (Sys.run (cfg8 dbg) (Sys.init (cfg8 dbg).clk false) [.setRate 1, .commit [1], .deliver 0, .genAck, .ack 0]).toOption.map
      (fun s => (s.dec.data, s.enc.window)) = some ([[1]], 0) := by
  refine ⟨eq_of_faultOf ?_, ?_⟩ <;> revert dbg <;> decide +kernel

/-- The packet handler commits another datum, asks for a repair and gives it to the decoder, all before the first commit goes on. -/
def nestedCommit : List RAct :=
  [.api (.setRate 100), .begin [1], .begin [2, 4], .ret, .api .repair, .api (.deliver 2)]

/-- **C58 fails** for a commit from within the handler: both data get the same identifier, and a decoder hands over a datum that was
never given to the encoder. -/
theorem C58_false_commit (dbg : Bool) :
    (Sys.runR (cfg8 dbg) (Sys.init (cfg8 dbg).clk false, .idle) nestedCommit).toOption.map
      (fun x => (x.1.dec.data, x.1.committed)) = some ([[3, 4, 0]], [[1], [2, 4]]) := by
  revert dbg; decide +kernel

end Netcode
