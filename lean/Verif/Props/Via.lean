import Verif.Proofs.Via
import Verif.Props.System
import Verif.Props.Wire

/-!
# C66: a repair may be cut before the second copy of its symbol
-/

namespace Netcode

variable {w : Nat}

/-- **C66, in part.** An encoder and a decoder between which every source and every ack arrives whole, every repair at least up to the end of
its encoded size, and any bytes may follow, are indistinguishable from ones between which all packets arrive as they were sent: same encoder,
same data handed over, same acks, same statistics.  This holds of both kinds of schedules (`late`).
Missing: the networks that `AllowedLate` leaves out. -/
theorem C66_same_partial {c : Cfg w} (hc : c.Ok) {late io : Bool} {S : Sys} (h : ReachVia c late io S) :
    ∃ s, Reaches c late io s ∧ S.enc = s.enc ∧ S.committed = s.committed ∧ S.hist = s.hist ∧ SameView s.dec S.dec := by
  obtain ⟨s, m, R, R', hA⟩ := alike_reach hc h
  refine ⟨s, hA.reach, ?_, ?_, ?_, ?_⟩
  · rw [hA.eqs, hA.eqS]
  · rw [hA.eqs, hA.eqS]
  · rw [hA.eqs, hA.eqS]
  · have : S.dec = s.dec.withR R' := by rw [hA.eqs, hA.eqS]; rfl
    rw [this]
    exact withR_same s.dec R'

/-- **C66, in part.** No call throws, asserts or has undefined behaviour. -/
theorem C66_no_fault_partial {c : Cfg w} (hc : c.Ok) {late io : Bool} {S : Sys} (h : ReachVia c late io S) {a : Act} {q : List Byte}
    (ha : AllowedVia c late S a q) : ∃ S', S.stepVia c a q = .ok S' ∧ S'.errs = 0 := by
  obtain ⟨s, m, R, R', hA⟩ := alike_reach hc h
  obtain ⟨s', S', m', R1, R1', h1, h2, h3⟩ := alike_step hc hA ha
  refine ⟨S', h1, ?_⟩
  have := inv_errs hc h3.inv
  rw [h3.eqS]
  exact this

/-- **C66.** The limit is exact: a repair packet cut by one byte more, or any more bytes, is refused by every decoder. -/
theorem C66_limit (gf : GF w) (dbg : Bool) (clk : Clock) (d : NDec) (r : ERepair) (hi : r.id < 2 ^ 32) (hids : WireIds r.ids)
    (hl : r.sym.length < 2 ^ 16) (q : List Byte) (hq : q <+: (EPkt.repair r).bytes) (h0 : q ≠ []) (hn : ¬ (EPkt.repair r).Enough q) :
    ∃ d', d.notify gf dbg clk q = .ok (d', .error .overflow) ∧ d'.data = d.data ∧ d'.out = d.out := by
  have hlen : q.length + (2 + r.sym.length) < (EPkt.repair r).bytes.length := by
    by_contra hcon
    exact hn (.inr ⟨r, rfl, hq, by omega⟩)
  have he : q = (writeRepair r).flatten.take q.length := List.prefix_iff_eq_take.1 hq
  obtain ⟨d', h1, -, h3, h4⟩ := C13_truncated_repair gf dbg clk d r hi hids hl q.length (List.length_pos_iff.2 h0)
    (by show _ < (EPkt.repair r).bytes.length; omega)
  rw [← he] at h1
  exact ⟨d', h1, h3, h4⟩

theorem via_of_step {c : Cfg w} {late io : Bool} {s s' : Sys} {a : Act} (ih : ReachVia c late io s) (ha : Permits c late s a)
    (hst : s.step c a = .ok s') : ReachVia c late io s' := by
  cases a with
  | deliver i =>
    cases hp : s.enc.out[i]? with
    | none =>
      refine ih.step (a := .deliver i) (q := []) ⟨ha, ?_, by intro j k e; cases e⟩ ?_
      · intro i' p e hq
        cases e
        rw [hp] at hq
        cases hq
      · simpa only [Sys.step, Sys.stepVia, hp] using hst
    | some p =>
      refine ih.step (a := .deliver i) (q := p.bytes) ⟨ha, ?_, by intro j k e; cases e⟩ ?_
      · intro i' p' e hq
        cases e
        rw [hp] at hq
        cases hq
        exact .inl (List.prefix_refl _)
      · simpa only [Sys.step, Sys.stepVia, hp] using hst
  | ack i =>
    cases hp : s.dec.out[i]? with
    | none =>
      refine ih.step (a := .ack i) (q := []) ⟨ha, by intro j k e; (cases e), ?_⟩ ?_
      · intro i' p e hq
        cases e
        rw [hp] at hq
        cases hq
      · simpa only [Sys.step, Sys.stepVia, hp] using hst
    | some p =>
      refine ih.step (a := .ack i) (q := (writeAck p).flatten) ⟨ha, by intro j k e; (cases e), ?_⟩ ?_
      · intro i' p' e hq
        cases e
        rw [hp] at hq
        cases hq
        exact List.prefix_refl _
      · simpa only [Sys.step, Sys.stepVia, hp] using hst
  | _ => exact ih.step (a := _) (q := []) ⟨ha, by intro j k e; (cases e), by intro j k e; (cases e)⟩ hst

/-- Packets that arrive as they were sent are one case. -/
theorem reach_via {c : Cfg w} {late io : Bool} {s : Sys} (h : Reaches c late io s) : ReachVia c late io s := by
  cases late with
  | false =>
    replace h : Reach c io s := h
    induction h with
    | init => exact .init
    | step _ ha hst ih => exact via_of_step ih ha hst
  | true =>
    replace h : ReachLate c io s := h
    induction h with
    | init => exact .init
    | step _ ha hst ih => exact via_of_step ih ha hst

/-- The first of three data is lost, and the repair of all three cut. -/
def demoVia : List Act := [.setRate 3, .commit [1, 2], .commit [3], .commit [4, 5, 6], .deliver 1, .deliver 2]

/-- The bytes of a packet, without the last `n`. -/
def Sys.cutPkt (s : Sys) (i n : Nat) : List Byte :=
  match s.enc.out[i]? with
  | none => []
  | some p => p.bytes.take (p.bytes.length - n)

/-- The schedule above, then the cut repair. -/
def Sys.runCut (c : Cfg w) (io : Bool) (acts : List Act) (i n : Nat) : Out Sys := do
  let s ← Sys.run c (Sys.init c.clk io) acts
  s.stepVia c (.deliver i) (s.cutPkt i n)

/-- It is decoded although the last 5 bytes of the repair are missing. -/
example (dbg io : Bool) : (Sys.runCut (cfg8 dbg) io demoVia 3 5).toOption.map
    (fun s => (s.dec.det.nbDecoded, s.dec.data.length, s.errs)) = some (1, 3, 0) := by
  revert dbg io; decide +kernel
/-- With 6 missing, the repair is refused. -/
example (dbg io : Bool) : (Sys.runCut (cfg8 dbg) io demoVia 3 6).toOption.map
    (fun s => (s.dec.det.nbDecoded, s.errs)) = some (0, 1) := by
  revert dbg io; decide +kernel

/-- How many bytes may be missing. -/
def Sys.spare (s : Sys) (i : Nat) : Nat :=
  match s.enc.out[i]? with
  | some (.repair r) => 2 + r.sym.length
  | _ => 0

/-- Such a step is one that is considered. -/
example (dbg io : Bool) : ∃ s, ReachVia (cfg8 dbg) false io s ∧ AllowedVia (cfg8 dbg) false s (.deliver 3) (s.cutPkt 3 5) ∧ s.spare 3 = 5 := by
  have hr : Reach (cfg8 dbg) io (reached (cfg8 dbg) io demoVia) := reached_reach (by revert dbg io; decide +kernel)
  have hs : (reached (cfg8 dbg) io demoVia).spare 3 = 5 := by clear hr; revert dbg io; decide +kernel
  have ha : allowedB (cfg8 dbg) (reached (cfg8 dbg) io demoVia) (.deliver 3) = true := by clear hr hs; revert dbg io; decide +kernel
  generalize reached (cfg8 dbg) io demoVia = s at hr hs ha
  refine ⟨s, reach_via hr, ⟨allowed_of_B ha, ?_, by intro j k e; cases e⟩, hs⟩
  intro i p e hp
  cases e
  unfold Sys.spare at hs
  rw [hp] at hs
  cases p with
  | source x => cases hs
  | repair r =>
    simp only at hs
    simp only [Sys.cutPkt, hp]
    exact .inr ⟨r, rfl, List.take_prefix _ _, by rw [List.length_take]; omega⟩

/-! ## The limits are needed -/

/-- 33 data of 4 bytes, one of 36, and 55 repairs of the latter alone: packet 88 is repair 54 of source 33. -/
def junkActs : List Act :=
  [.setRate 1000, .setWindow 1] ++ List.replicate 33 (.commit [5, 6, 7, 8]) ++ [.commit (List.replicate 36 9)] ++ List.replicate 55 .repair

/-- Packet 88 and 12 bytes more. -/
def Sys.junk (s : Sys) (x : Byte) : List Byte := ((s.enc.out[88]?.map (·.bytes)).getD []) ++ List.replicate 12 x

/-- **C66 fails** with field size 32, when a size and its coefficient have a product of more than 16 bits: the decoder takes the datum for one
of 92 bytes.  As it was sent, the packet is too short for that and the decoder reads outside of it.  If bytes follow, the decoder hands
them over, multiplied by the inverse of the coefficient, in a datum that was never committed. -/
theorem C66_false (dbg : Bool) : ∃ s p S, AnyReach (cfg32 dbg) false s ∧ s.enc.out[88]? = some p ∧ p.Enough (s.junk 7) ∧
    s.step (cfg32 dbg) (.deliver 88) = .error (.ub .oobRead) ∧ s.stepVia (cfg32 dbg) (.deliver 88) (s.junk 7) = .ok S ∧
    ∃ d ∈ S.dec.data, d.length = 92 ∧ d ∉ S.committed := by
  have h0 : (runAny (cfg32 dbg) (Sys.init (cfg32 dbg).clk false) junkActs).isSome = true := by revert dbg; decide +kernel
  have h1 : (anyReached (cfg32 dbg) false junkActs).enc.out[88]?.isSome = true := by clear h0; revert dbg; decide +kernel
  have h2 : faultOf ((anyReached (cfg32 dbg) false junkActs).step (cfg32 dbg) (.deliver 88)) = some (.ub .oobRead) := by
    clear h0 h1; revert dbg; decide +kernel
  have h3 : ((anyReached (cfg32 dbg) false junkActs).stepVia (cfg32 dbg) (.deliver 88) ((anyReached (cfg32 dbg) false junkActs).junk 7)).toOption.any
      (fun S => decide (∃ d ∈ S.dec.data, d.length = 92 ∧ d ∉ S.committed)) = true := by
    clear h0 h1 h2; revert dbg; decide +kernel
  have hr := anyReached_reach h0
  generalize anyReached (cfg32 dbg) false junkActs = s at h1 h2 h3 hr
  cases hp : s.enc.out[88]? with
  | none => rw [hp] at h1; cases h1
  | some p =>
    cases hs : s.stepVia (cfg32 dbg) (.deliver 88) (s.junk 7) with
    | error f => rw [hs] at h3; cases h3
    | ok S =>
      rw [hs] at h3
      refine ⟨s, p, S, hr, hp, .inl ?_, eq_of_faultOf h2, hs, of_decide_eq_true h3⟩
      unfold Sys.junk
      rw [hp]
      exact List.prefix_append _ _

end Netcode
