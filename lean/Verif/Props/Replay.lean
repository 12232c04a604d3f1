import Verif.Spec.Replay
import Verif.Props.Packet
import Verif.Props.CProg
import Verif.Props.Decoder

/-!
# C90: a replay does what the recorded decoder did
-/

namespace Netcode

variable {w : Nat} {gf : GF w} {dbg : Bool} {clk clk' : Clock}

/-! ## Decoders that differ in their acks -/

theorem SameDecoding.refl (d : NDec) : SameDecoding d d := ⟨rfl, rfl, rfl, rfl⟩

theorem same_maybeAck (clk : Clock) {d d' : NDec} (h : SameDecoding d d') (l : List Nat) : SameDecoding d (d'.maybeAckWith clk l) := by
  unfold NDec.maybeAckWith
  split
  · exact ⟨h.1, h.2, h.3, h.4⟩
  · split
    · dsimp only
      split
      · exact ⟨h.1, h.2, h.3, h.4⟩
      · exact ⟨h.1, h.2, h.3, h.4⟩
    · exact h

theorem same_maybeAck' (clk : Clock) {d d' : NDec} (h : SameDecoding d d') (l : List Nat) : SameDecoding (d.maybeAckWith clk l) d' := by
  have g := same_maybeAck clk (SameDecoding.refl d) l
  exact ⟨h.1.trans g.1.symm, h.2.trans g.2.symm, h.3.trans g.3.symm, h.4.trans g.4.symm⟩

theorem same_handle {d d' : NDec} (h : SameDecoding d d') (ev : Event) :
    SameDecoding (d.handleSource clk ev) (d'.handleSource clk' ev) := by
  unfold NDec.handleSource
  apply same_maybeAck
  apply same_maybeAck'
  exact ⟨congrArg (· ++ [ev.data]) h.1, h.2, h.3, h.4⟩

theorem same_fold (l : List Event) {d d' : NDec} (h : SameDecoding d d') :
    SameDecoding (l.foldl (NDec.handleSource clk) d) (l.foldl (NDec.handleSource clk') d') := by
  induction l generalizing d d' with
  | nil => exact h
  | cons a l ih => exact ih (same_handle h a)

theorem same_afterDet {d d' : NDec} (h : SameDecoding d d') (t : Dec) : SameDecoding (d.afterDet clk t) (d'.afterDet clk' t) := by
  unfold NDec.afterDet
  rw [h.4]
  exact same_fold _ ⟨h.1, h.2, h.3, rfl⟩

theorem same_replay {d d' t : NDec} {b : List Byte} {n : Nat} (h : SameDecoding d d') (e : d.notify gf dbg clk b = .ok (t, .ok n)) :
    ∃ t', replayPacket gf dbg clk' d' b = .ok (.inl t') ∧ SameDecoding t t' := by
  unfold NDec.notify at e
  rw [bind_ok_iff] at e
  obtain ⟨u, e0, e⟩ := e
  cases u
  unfold replayPacket NDec.notify
  rw [e0]
  cases hp : getPacketType b with
  | error x => cases x <;> · rw [hp] at e; cases e
  | ok ty =>
    rw [hp] at e
    cases ty with
    | ack => cases e
    | repair =>
      dsimp only at e ⊢
      cases hr : readRepair b with
      | error x => cases x <;> · rw [hr] at e; cases e
      | ok x =>
        obtain ⟨r, m⟩ := x
        rw [hr] at e
        dsimp only at e ⊢
        simp only [bind_ok_iff, pure_ok_iff] at e
        obtain ⟨det, e1, e2⟩ := e
        cases e2
        refine ⟨_, ?_, same_afterDet (clk := clk) (clk' := clk')
          (d := { d with nbRepairs := d.nbRepairs + 1, ackPackets := (d.ackPackets + 1) % 2 ^ 16 })
          (d' := { d' with nbRepairs := d'.nbRepairs + 1, ackPackets := (d'.ackPackets + 1) % 2 ^ 16 })
          ⟨h.1, h.2, congrArg (· + 1) h.3, h.4⟩ det⟩
        rw [h.4, e1]
        rfl
    | source =>
      dsimp only at e ⊢
      cases hr : readSource b with
      | error x => cases x <;> · rw [hr] at e; cases e
      | ok x =>
        obtain ⟨r, m⟩ := x
        rw [hr] at e
        dsimp only at e ⊢
        simp only [bind_ok_iff, pure_ok_iff] at e
        obtain ⟨det, e1, e2⟩ := e
        cases e2
        refine ⟨_, ?_, same_afterDet (clk := clk) (clk' := clk')
          (d := { d with nbSources := d.nbSources + 1, ackPackets := (d.ackPackets + 1) % 2 ^ 16 })
          (d' := { d' with nbSources := d'.nbSources + 1, ackPackets := (d'.ackPackets + 1) % 2 ^ 16 })
          ⟨h.1, congrArg (· + 1) h.2, h.3, h.4⟩ det⟩
        rw [h.4, e1]
        rfl

theorem replay_thrown {d d' t : NDec} {b : List Byte} {x : CppErr} (e : d.notify gf dbg clk b = .ok (t, .error x)) :
    ∃ y, replayPacket gf dbg clk' d' b = .ok (.inr y) ∧ y ≠ .eof := by
  unfold NDec.notify at e
  rw [bind_ok_iff] at e
  obtain ⟨u, e0, e⟩ := e
  unfold replayPacket
  cases hp : getPacketType b with
  | error x =>
    rw [hp] at e
    cases x with
    | fault f => cases e
    | cpp x => exact ⟨_, rfl, by simp⟩
  | ok ty =>
    rw [hp] at e
    cases ty with
    | ack => exact ⟨_, rfl, by simp⟩
    | repair =>
      dsimp only at e ⊢
      cases hr : readRepair b with
      | error x =>
        rw [hr] at e
        cases x with
        | fault f => cases e
        | cpp x => exact ⟨_, rfl, by simp⟩
      | ok x =>
        rw [hr] at e
        simp only [bind_ok_iff, pure_ok_iff] at e
        obtain ⟨det, e1, e2⟩ := e
        cases e2
    | source =>
      dsimp only at e ⊢
      cases hr : readSource b with
      | error x =>
        rw [hr] at e
        cases x with
        | fault f => cases e
        | cpp x => exact ⟨_, rfl, by simp⟩
      | ok x =>
        rw [hr] at e
        simp only [bind_ok_iff, pure_ok_iff] at e
        obtain ⟨det, e1, e2⟩ := e
        cases e2

/-! ## The file -/

/-- The packets of a sequence of calls. -/
def RCall.packets (l : List RCall) : List Packet := l.filterMap fun | .packet p => some p | _ => none

theorem call_file {s t : Recorder} {a : RCall} {r : Except CppErr Nat} (h : s.call gf dbg clk a = .ok (t, r)) :
    t.file = s.file ++ dumpAll (RCall.packets [a]) := by
  cases a with
  | packet p =>
    simp only [Recorder.call, bind_ok_iff, pure_ok_iff] at h
    obtain ⟨_, _, b, _, ⟨d, r⟩, _, h⟩ := h
    cases h
    simp [RCall.packets, dumpAll]
  | setAckNb n =>
    simp only [Recorder.call, bind_ok_iff, pure_ok_iff] at h
    obtain ⟨d, _, h⟩ := h
    cases h
    simp [RCall.packets, dumpAll]
  | genAck => cases h; simp [RCall.packets, dumpAll]
  | maybeAck => cases h; simp [RCall.packets, dumpAll]
  | setAckPeriod ms => cases h; simp [RCall.packets, dumpAll]

theorem packets_append (a b : List RCall) : RCall.packets (a ++ b) = RCall.packets a ++ RCall.packets b := List.filterMap_append

theorem dumpAll_append (a b : List Packet) : dumpAll (a ++ b) = dumpAll a ++ dumpAll b := by simp [dumpAll]

theorem run_file {s t : Recorder} {l : List RCall} (h : s.run gf dbg clk l = .ok t) : t.file = s.file ++ dumpAll (RCall.packets l) := by
  induction l generalizing s with
  | nil => cases h; simp [RCall.packets, dumpAll]
  | cons a l ih =>
    unfold Recorder.run at h
    rw [List.foldlM_cons, bind_ok_iff] at h
    obtain ⟨m, h1, h2⟩ := h
    rw [map_ok_iff] at h1
    obtain ⟨⟨m', r⟩, h1, rfl⟩ := h1
    have e := ih h2
    rw [e, call_file h1, List.append_assoc, ← dumpAll_append, ← packets_append]
    rfl

theorem returned_file {s t : Recorder} {l : List RCall} (h : Returned gf dbg clk s l t) : t.file = s.file ++ dumpAll (RCall.packets l) := by
  induction l generalizing s with
  | nil => cases h; simp [RCall.packets, dumpAll]
  | cons a l ih =>
    obtain ⟨m, n, h1, h2⟩ := h
    rw [ih h2, call_file h1, List.append_assoc, ← dumpAll_append, ← packets_append]
    rfl

/-! ## The loop -/

theorem loop_returned {l : List RCall} {s t : Recorder} (h : Returned gf dbg clk s l t) (hd : ∀ p, .packet p ∈ l → p.Dumpable)
    {d : NDec} (hs : SameDecoding s.dec d) (rest : List Cell) (hr : rest ≠ []) (k : Nat) :
    ∃ d', SameDecoding t.dec d' ∧
      replayRun gf dbg clk' ((RCall.packets l).length + k) d (dumpAll (RCall.packets l) ++ rest) = replayRun gf dbg clk' k d' rest := by
  induction l generalizing s d with
  | nil =>
    cases h
    exact ⟨d, hs, by simp [RCall.packets, dumpAll]⟩
  | cons a l ih =>
    obtain ⟨m, n, h1, h2⟩ := h
    have hd' : ∀ p, .packet p ∈ l → p.Dumpable := fun p hp => hd p (List.mem_cons_of_mem _ hp)
    cases a with
    | packet p =>
      simp only [Recorder.call, bind_ok_iff, pure_ok_iff] at h1
      obtain ⟨_, _, b, hb, ⟨d1, r⟩, hn, h1⟩ := h1
      cases h1
      obtain ⟨d2, h3, h4⟩ := same_replay (clk' := clk') hs hn
      obtain ⟨d3, h5, h6⟩ := ih h2 hd' h4
      refine ⟨d3, h5, ?_⟩
      have hp := (hd p List.mem_cons_self).bounds
      have e : RCall.packets (.packet p :: l) = p :: RCall.packets l := rfl
      have e2 : dumpAll (p :: RCall.packets l) ++ rest = dumpPacket p ++ (dumpAll (RCall.packets l) ++ rest) := by simp [dumpAll]
      rw [e, e2, List.length_cons, Nat.add_right_comm, replayRun, undump_dump p hp.1 hp.2]
      dsimp only
      rw [if_neg (by simp [hr]), hb]
      simp only [bind, Except.bind, h3]
      exact h6
    | setAckNb n =>
      simp only [Recorder.call, bind_ok_iff, pure_ok_iff] at h1
      obtain ⟨d1, h0, h1⟩ := h1
      cases h1
      simp only [NDec.setAckNb, bind_ok_iff, pure_ok_iff] at h0
      obtain ⟨_, _, h0⟩ := h0
      cases h0
      exact ih h2 hd' ⟨hs.1, hs.2, hs.3, hs.4⟩
    | genAck => cases h1; exact ih h2 hd' ⟨hs.1, hs.2, hs.3, hs.4⟩
    | maybeAck => cases h1; exact ih h2 hd' (same_maybeAck' _ hs _)
    | setAckPeriod ms => cases h1; exact ih h2 hd' ⟨hs.1, hs.2, hs.3, hs.4⟩

theorem packets_ne {l : List RCall} (h : ∃ q, .packet q ∈ l) : dumpAll (RCall.packets l) ≠ [] := by
  obtain ⟨q, hq⟩ := h
  have : q ∈ RCall.packets l := List.mem_filterMap.2 ⟨_, hq, rfl⟩
  intro e
  have := List.flatten_eq_nil_iff.1 e _ (List.mem_map.2 ⟨q, this, rfl⟩)
  simp [dumpPacket] at this

theorem packets_nil {l : List RCall} (h : ¬ ∃ q, .packet q ∈ l) : RCall.packets l = [] := by
  rw [RCall.packets, List.filterMap_eq_nil_iff]
  intro a ha
  cases a with
  | packet p => exact absurd ⟨p, ha⟩ h
  | _ => rfl

/-- **C90**, partial.  A decoder for a field of 8 bits that hands data over in order, and writes the packets it gets to a file, got a
packet `p` after calls that all returned; either `p` was its last packet or the call for `p` threw an exception.  Then the replay tool,
run on the file, has a decoder that did what the recorded one had done *before* `p`; it ended at the end of the file, or else by an
exception.

What is missing of the full statement (the replay does all that the recorded decoder did): see `C90_false_last`, `C90_false_throw`,
`C90_false_order`, `C90_false_field`. -/
theorem C90_replay_partial (gf : GF 8) (dbg : Bool) (clk clk' : Clock) (pre post : List RCall) (p : Packet) (s t u : Recorder)
    (r : Except CppErr Nat) (hd : ∀ q, .packet q ∈ pre ++ .packet p :: post → q.Dumpable)
    (h1 : Returned gf dbg clk (Recorder.new clk true) pre s) (h2 : s.call gf dbg clk (.packet p) = .ok (t, r))
    (h3 : t.run gf dbg clk post = .ok u) (h4 : (∃ q, .packet q ∈ post) → ∃ x, r = .error x) :
    ∃ d e, replayMain gf dbg clk' u.file = .ok (d, e) ∧ SameDecoding s.dec d ∧ (e = .eof ↔ ¬ ∃ q, .packet q ∈ post) := by
  have hf : u.file = dumpAll (RCall.packets pre) ++ (dumpPacket p ++ dumpAll (RCall.packets post)) := by
    rw [run_file h3, call_file h2, returned_file h1]
    simp [Recorder.new, RCall.packets, dumpAll]
  have hne : dumpPacket p ++ dumpAll (RCall.packets post) ≠ [] := by simp [dumpPacket]
  have hlen : ∃ k, u.file.length + 1 = (RCall.packets pre).length + (k + 1) := by
    have := length_le_dumpAll (RCall.packets pre)
    have e := congrArg List.length hf
    rw [List.length_append] at e
    exact ⟨u.file.length - (RCall.packets pre).length, by omega⟩
  obtain ⟨k, hk⟩ := hlen
  have h0 : SameDecoding (Recorder.new clk true).dec (NDec.init clk' true) := ⟨rfl, rfl, rfl, rfl⟩
  obtain ⟨d, h5, h6⟩ := loop_returned (clk' := clk') h1 (fun q hq => hd q (List.mem_append_left _ hq)) h0 _ hne (k + 1)
  have hp := (hd p (by simp)).bounds
  have hm : replayMain gf dbg clk' u.file = replayRun gf dbg clk' (k + 1) d (dumpPacket p ++ dumpAll (RCall.packets post)) := by
    unfold replayMain
    rw [hk]
    conv => lhs; rw [hf]
    exact h6
  rw [hm, replayRun, undump_dump p hp.1 hp.2]
  dsimp only
  by_cases hq : ∃ q, .packet q ∈ post
  · obtain ⟨x, rfl⟩ := h4 hq
    rw [if_neg (packets_ne hq)]
    simp only [Recorder.call, bind_ok_iff, pure_ok_iff] at h2
    obtain ⟨_, _, b, hb, ⟨d1, r⟩, hn, h2⟩ := h2
    cases h2
    obtain ⟨y, h7, h8⟩ := replay_thrown (clk' := clk') (d' := d) hn
    refine ⟨d, y, ?_, h5, ?_⟩
    · rw [hb]
      simp only [bind, Except.bind, h7]
      rfl
    · exact ⟨fun e => absurd e h8, fun e => absurd hq e⟩
  · rw [packets_nil hq]
    exact ⟨d, .eof, rfl, h5, ⟨fun _ => hq, fun _ => rfl⟩⟩

theorem toOption_eq {α : Type} {x : Out α} {a : α} (h : x.toOption = some a) : x = .ok a := by
  cases x with
  | error f => cases h
  | ok b => cases h; rfl

/-! ## Examples, and where the statement fails -/

/-- A packet object that holds these bytes. -/
def pktOf (l : List Byte) : Packet := ⟨List.replicate 9 none ++ l.map some⟩

theorem pktOf_dumpable {l : List Byte} (h : l.length ≤ 65526) : (pktOf l).Dumpable :=
  ⟨l.map some, ⟨List.replicate 9 none, by simp, rfl, by simp; omega⟩, by simpa using h⟩

/-- Give the recorded decoder these packets of `eight`. -/
def feed (l : List Nat) : List RCall := l.map (fun i => .packet (pktOf (eight.getD i [])))

/-- The data that the recorded decoder handed over, and those of a replay of its file with how it ended. -/
def replayed (gf : GF w) (dbg : Bool) (io : Bool) (l : List RCall) : Option (List (List Byte) × List (List Byte) × REnd) := do
  let s ← ((Recorder.new clk0 io).run gf dbg clk0 l).toOption
  let (d, e) ← (replayMain gf8 dbg clk0 s.file).toOption
  return (s.dec.data, d.data, e)

/-- The state after calls that all returned. -/
def returnedTo (gf : GF w) (dbg : Bool) (clk : Clock) (s : Recorder) : List RCall → Option Recorder
  | [] => some s
  | a :: l => match s.call gf dbg clk a with
    | .ok (m, .ok _) => returnedTo gf dbg clk m l
    | _ => none

theorem returned_of {s t : Recorder} {l : List RCall} (h : returnedTo gf dbg clk s l = some t) : Returned gf dbg clk s l t := by
  induction l generalizing s with
  | nil => cases h; rfl
  | cons a l ih =>
    unfold returnedTo at h
    split at h
    · exact ⟨_, _, by assumption, ih h⟩
    · cases h

/-- Four sources are handed over, one of them decoded; then an ack comes by mistake, and the user goes on.  The replay does what was done
before the ack. -/
example : ∃ s t u d e,
    Returned gf8 true clk0 (Recorder.new clk0 true) (feed [0, 1, 3, 4] ++ [.maybeAck]) s ∧ s.dec.data = (List.range 4).map dat ∧
    s.call gf8 true clk0 (.packet (pktOf [0])) = .ok (t, .error .packetType) ∧ t.run gf8 true clk0 (feed [5]) = .ok u ∧
    replayMain gf8 true clk0 u.file = .ok (d, e) ∧ d.data = (List.range 4).map dat ∧ e ≠ .eof := by
  have h1 : ((returnedTo gf8 true clk0 (Recorder.new clk0 true) (feed [0, 1, 3, 4] ++ [.maybeAck])).bind fun s =>
      (s.call gf8 true clk0 (.packet (pktOf [0]))).toOption.bind fun t => (t.1.run gf8 true clk0 (feed [5])).toOption.map fun _ =>
        (s.dec.data, t.2)) = some ((List.range 4).map dat, .error .packetType) := by decide +kernel
  rw [Option.bind_eq_some_iff] at h1
  obtain ⟨s, hs, h1⟩ := h1
  rw [Option.bind_eq_some_iff] at h1
  obtain ⟨⟨t, r⟩, ht, h1⟩ := h1
  rw [Option.map_eq_some_iff] at h1
  obtain ⟨u, hu, h1⟩ := h1
  obtain ⟨h2, h3⟩ := Prod.mk.inj h1
  dsimp only at h2 h3 hu
  subst h3
  have ht := toOption_eq ht
  have hu := toOption_eq hu
  have hd : ∀ q, .packet q ∈ (feed [0, 1, 3, 4] ++ [.maybeAck]) ++ .packet (pktOf [0]) :: feed [5] → q.Dumpable := by
    have hall : ∀ i ∈ [0, 1, 3, 4, 5], (eight.getD i []).length ≤ 65526 := by decide +kernel
    intro q hq
    simp only [feed, List.map_cons, List.map_nil, List.mem_append, List.mem_cons, List.not_mem_nil, or_false, RCall.packet.injEq,
      reduceCtorEq] at hq
    rcases hq with (rfl | rfl | rfl | rfl) | rfl | rfl
    all_goals first | exact pktOf_dumpable (hall _ (by decide)) | exact pktOf_dumpable (by decide)
  obtain ⟨d, e, h4, h5, h6⟩ := C90_replay_partial gf8 true clk0 clk0 _ (feed [5]) (pktOf [0]) s t u _ hd (returned_of hs) ht hu
    (fun _ => ⟨_, rfl⟩)
  exact ⟨s, t, u, d, e, returned_of hs, h2, ht, hu, h4, h5.data.trans h2, fun he => h6.1 he ⟨_, by simp [feed]; rfl⟩⟩

/-- **C90** fails for the last packet: its effects are not replayed. -/
theorem C90_false_last (dbg : Bool) : replayed gf8 dbg true (feed [0, 1]) = some ([dat 0, dat 1], [dat 0], .eof) := by
  revert dbg; decide +kernel

/-- **C90** fails after an exception: a packet of another kind (here an ack) ends the replay, but not the recorded decoder. -/
theorem C90_false_throw (dbg : Bool) :
    replayed gf8 dbg true (feed [0] ++ .packet (pktOf [0]) :: feed [1, 2, 3]) = some ([dat 0, dat 1, dat 2, dat 3], [dat 0], .ack) := by
  revert dbg; decide +kernel

/-- **C90** fails for a decoder that does not order: the decoder of the replay does. -/
theorem C90_false_order (dbg : Bool) :
    replayed gf8 dbg false (feed [1, 0, 2, 3]) = some ([dat 1, dat 0, dat 2, dat 3], [dat 0, dat 1, dat 2], .eof) := by
  revert dbg; decide +kernel

/-- Packets of an encoder for GF(2^4): a source, its repair, another source. -/
def four : List (List Byte) :=
  (anyReached (cfg4 true) true [.setRate 1, .commit (dat 0), .commit (dat 1)]).enc.out.map (·.bytes)

/-- **C90** fails for another field: the decoder of the replay is one for GF(2^8), and hands over what was never sent. -/
theorem C90_false_field (dbg : Bool) :
    (replayed gf4 dbg true ([1, 2].map fun i => .packet (pktOf (four.getD i [])))).map (fun x => (x.1, decide (x.2.1 = [dat 0]), x.2.1.length)) =
      some ([dat 0, dat 1], false, 1) := by
  revert dbg; decide +kernel

end Netcode
