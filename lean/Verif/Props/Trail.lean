import Verif.Proofs.Trail
import Verif.Props.System
import Verif.Props.Decoder

/-!
# C54: bytes after the end of a packet are ignored
-/

namespace Netcode

variable {w : Nat}

theorem longer_refl (m : OMap DRepair) : Longer m m := by
  unfold Longer
  induction m with
  | nil => exact .nil
  | cons p t ih => exact .cons ⟨rfl, rfl, rfl, rfl, rfl, [], by simp⟩ ih

/-- **C54.** A decoder that gets complete packets followed by other bytes gives the same data, sends the same acks and has the same
statistics as one that gets the packets alone: whatever the packets, the bytes that follow them and the other calls, as long as no
call of the latter meets undefined behaviour. -/
theorem C54_decoder (gf : GF w) (dbg : Bool) (clk : Clock) (io : Bool) (acts acts' : List DAct)
    (hp : List.Forall₂ DAct.Padded acts acts') (d : NDec) (h : (NDec.init clk io).after gf dbg clk acts = .ok d) :
    ∃ d', (NDec.init clk io).after gf dbg clk acts' = .ok d' ∧ SameView d d' := by
  obtain ⟨R, h1, _⟩ := after_tail hp (longer_refl (NDec.init clk io).det.repairs) h
  exact ⟨_, h1, withR_same d R⟩

/-- **C54.** The call for such a packet returns the number of bytes of the packet, or throws, as the call for the packet alone. -/
theorem C54_result (gf : GF w) (dbg : Bool) (clk : Clock) (io : Bool) (acts acts' : List DAct)
    (hp : List.Forall₂ DAct.Padded acts acts') (d d1 : NDec) (h : (NDec.init clk io).after gf dbg clk acts = .ok d)
    (p j : List Byte) (hc : Complete p) (o : Except CppErr Nat) (h1 : d.notify gf dbg clk p = .ok (d1, o)) :
    ∃ d' d1', (NDec.init clk io).after gf dbg clk acts' = .ok d' ∧ d'.notify gf dbg clk (p ++ j) = .ok (d1', o) ∧
      SameView d1 d1' := by
  obtain ⟨R, k1, hl⟩ := after_tail hp (longer_refl (NDec.init clk io).det.repairs) h
  obtain ⟨R', k2, _⟩ := notify_tail hl h1 (hc.no_overflow h1) j
  exact ⟨_, _, k1, k2, withR_same d1 R'⟩

/-- **C54.** An encoder that gets complete packets followed by other bytes is the same as one that gets the packets alone. -/
theorem C54_encoder (gf : GF w) (F : F64) (dbg : Bool) (acts acts' : List EAct) (hp : List.Forall₂ EAct.Padded acts acts')
    (e e' : Enc) (h : e.after gf F dbg acts = .ok e') : e.after gf F dbg acts' = .ok e' := by
  unfold Enc.after at *
  induction hp generalizing e with
  | nil => exact h
  | cons h1 _ ih =>
    rw [List.foldlM_cons, bind_ok_iff] at h ⊢
    obtain ⟨e1, h2, h⟩ := h
    exact ⟨e1, Enc.act_tail h1 h2, ih e1 h⟩

/-- **C54.** The same for an encoder, a decoder and a network that adds bytes after the packets of both directions (`acts` pairs each
step with the bytes added): if no exception is thrown when it adds none, the encoder is the same and the decoder looks the same. -/
theorem C54_system (c : Cfg w) (io : Bool) (acts : List (Act × List Byte)) (s : Sys)
    (h : (Sys.init c.clk io).run c (acts.map (·.1)) = .ok s) (he : s.errs = 0) :
    ∃ s', (Sys.init c.clk io).runPadded c acts = .ok s' ∧ s'.enc = s.enc ∧ s'.committed = s.committed ∧ s'.errs = 0 ∧
      SameView s.dec s'.dec := by
  obtain ⟨R, h1, _⟩ := run_tail acts (longer_refl (Sys.init c.clk io).dec.det.repairs) h he
  exact ⟨_, h1, rfl, rfl, he, withR_same s.dec R⟩

/-- The packets of `eight`, each followed by some bytes. -/
def padded (l : List Nat) : List DAct := l.map (fun i => .packet (eight.getD i [] ++ List.replicate (i + 1) 0xEE#8))

/-- Boolean form of `Complete`. -/
def completeB (p : List Byte) : Bool :=
  match getPacketType p with
  | .ok .ack => (readAck p).toBool
  | .ok .repair => (readRepair p).toBool
  | .ok .source => (readSource p).toBool
  | _ => true

theorem complete_of_B {p : List Byte} (h : completeB p = true) : Complete p := by
  unfold completeB at h
  constructor
  · intro ht
    rw [ht] at h
    cases hr : readAck p with
    | ok a => exact ⟨a, rfl⟩
    | error e => rw [hr] at h; cases h
  · intro ht
    rw [ht] at h
    cases hr : readRepair p with
    | ok a => exact ⟨a, rfl⟩
    | error e => rw [hr] at h; cases h
  · intro ht
    rw [ht] at h
    cases hr : readSource p with
    | ok a => exact ⟨a, rfl⟩
    | error e => rw [hr] at h; cases h

/-- Source 2 is lost, the repair arrives first and source 3 last: source 2 is decoded from a repair followed by other bytes. -/
example : List.Forall₂ DAct.Padded (give [0, 4, 1, 3]) (padded [0, 4, 1, 3]) := by
  have h : ∀ i ∈ [0, 4, 1, 3], completeB (eight.getD i []) = true := by decide +kernel
  refine .cons (.packet _ _ (complete_of_B (h 0 (by simp)))) (.cons (.packet _ _ (complete_of_B (h 4 (by simp))))
    (.cons (.packet _ _ (complete_of_B (h 1 (by simp)))) (.cons (.packet _ _ (complete_of_B (h 3 (by simp)))) .nil)))
example : ((NDec.init clk0 false).after gf8 true clk0 (padded [0, 4, 1, 3])).toOption.map (fun d => (d.data, d.det.nbDecoded)) =
    ((NDec.init clk0 false).after gf8 true clk0 (give [0, 4, 1, 3])).toOption.map (fun d => (d.data, d.det.nbDecoded)) := by
  decide +kernel
example : ((NDec.init clk0 false).after gf8 true clk0 (give [0, 4, 1, 3])).toOption.map (fun d => (d.data.length, d.det.nbDecoded)) =
    some (4, 1) := by
  decide +kernel

/-- In the demonstration of `Verif/Props/System.lean` no exception is thrown. -/
example : (Sys.run (cfg8 true) (Sys.init (cfg8 true).clk false) demo).toOption.map (·.errs) = some 0 := by decide +kernel
example : (Sys.runPadded (cfg8 true) (Sys.init (cfg8 true).clk false) (demo.map fun a => (a, [1#8, 2#8, 3#8]))).toOption.map
    (fun s => s.dec.data) = some [[1, 2], [4, 5, 6], [3], [7], [8, 9]] := by decide +kernel

/-- A packet that is not complete is not covered: the first six bytes of a source packet are refused, followed by other bytes they are
another source. -/
theorem C54_incomplete :
    (readSource [2, 0, 0, 0, 7, 0]).toOption = none ∧
    (readSource ([2, 0, 0, 0, 7, 0] ++ [1, 9])).toOption.map (·.1) = some ⟨7, [9]⟩ := by decide +kernel

end Netcode
