import Verif.Proofs.Layout
import Verif.Props.System

/-!
# C60: the layout of the packets on the network
-/

namespace Netcode

/-- **C60**, lists of identifiers: any two encodings of a list that follow the layout are the same bytes, so the layout says all. -/
theorem C60_determined {ids : List Nat} {b b' : List Byte} (h : IdBytes ids b) (h' : IdBytes ids b') : b = b' := by
  cases h with
  | nil => cases h'; rfl
  | cons r =>
    generalize he : _ :: _ = l at h'
    cases h' with
    | nil => cases he
    | cons r' =>
      cases he
      rw [r.unique r']

/-- **C60**, repairs: type 1, identifier, size of the symbol, symbol, list of sources, encoded size, then size and symbol once more. -/
theorem C60_repair_layout (r : ERepair) (hs : Sorted r.ids) (hb : ∀ x ∈ r.ids, x < 2 ^ 32) :
    ∃ ids, IdBytes r.ids ids ∧
      (EPkt.repair r).bytes = [1] ++ bigEndian 4 r.id ++ bigEndian 2 r.sym.length ++ r.sym ++ ids ++ bigEndian 2 r.encSize.toNat ++
        bigEndian 2 r.sym.length ++ r.sym := by
  refine ⟨_, writeIds_bytes r.ids hs hb, ?_⟩
  simp [EPkt.bytes, EPkt.chunks, writeRepair, beBytes_bigEndian]
  rfl

/-- **C60**, sources: type 2, identifier, size, data. -/
theorem C60_source_layout (s : ESource) : (EPkt.source s).bytes = [2] ++ bigEndian 4 s.id ++ bigEndian 2 s.sym.length ++ s.sym := by
  simp [EPkt.bytes, EPkt.chunks, writeSource, beBytes_bigEndian]
  rfl

/-- **C60**, acks: type 0, number of packets, list of sources. -/
theorem C60_ack_layout (a : Ack) (hs : Sorted a.ids) (hb : ∀ x ∈ a.ids, x < 2 ^ 32) :
    ∃ ids, IdBytes a.ids ids ∧ (writeAck a).flatten = [0] ++ bigEndian 2 a.nbPackets ++ ids := by
  refine ⟨_, writeIds_bytes a.ids hs hb, ?_⟩
  simp [writeAck, beBytes_bigEndian]
  rfl

/-- **C60**: `n + 1` consecutive sources take 6 bytes and 3 for each 255 gaps begun. -/
theorem C60_consecutive (first n : Nat) (hb : first + n < 2 ^ 32) :
    (writeIds (List.range' first (n + 1))).flatten.length = 6 + 3 * ((n + 254) / 255) := by
  have h := writeIds_bytes (List.range' first (n + 1)) List.pairwise_lt_range' (fun x hx => by
    have := List.mem_range'_1.1 hx; omega)
  have hg := gaps_range' n first
  revert h
  generalize (writeIds (List.range' first (n + 1))).flatten = b
  rw [List.range'_succ] at hg ⊢
  intro h
  cases h with
  | cons r =>
    rename_i runs
    have h1 := (hg ▸ r).const
    have h2 : (runs.flatMap (fun r => bigEndian 1 r.1 ++ bigEndian 2 r.2)).length = 3 * runs.length := by
      clear r h1
      induction runs with
      | nil => rfl
      | cons q u ih => rw [List.flatMap_cons, List.length_append, ih, List.length_append, bigEndian_length, bigEndian_length,
          List.length_cons]; omega
    rw [List.length_append, List.length_append, h2, bigEndian_length, bigEndian_length, h1]

/-- **C60**: the lists of sources in the packets that an encoder emits and in the acks of a decoder meet the conditions above. -/
theorem C60_genuine {w : Nat} {c : Cfg w} {io : Bool} {s : Sys} (hc : c.Ok) (h : Reach c io s) :
    (∀ r, .repair r ∈ s.enc.out → Sorted r.ids ∧ ∀ x ∈ r.ids, x < 2 ^ 32) ∧
    (∀ a ∈ s.dec.out, Sorted a.ids ∧ ∀ x ∈ a.ids, x < 2 ^ 32) := by
  have := fact_of_valid hc.width
  obtain ⟨ems, _, _, _, _, _, hI⟩ := inv_of_reach hc h
  have hn : s.committed.length < 2 ^ 32 := hI.curLt
  constructor
  · intro r hr
    obtain ⟨i, hi⟩ := List.mem_iff_getElem?.1 hr
    have hlt : i < ems.length := by rw [← hI.enc.outLen]; exact getElem?_lt hi
    have hre := hI.enc.rend i ems[i] _ (List.getElem?_eq_getElem hlt) hi
    have hmem : ems[i] ∈ ems := List.getElem_mem hlt
    revert hre hmem
    cases ems[i] with
    | src x => intro hre; cases hre
    | rep rid W =>
      rintro ⟨r', e, h1, -, h2⟩ hmem
      cases e
      have hids : r.ids = W := by rw [h1.ids, List.map_map]; exact List.map_id' W
      rw [hids]
      exact ⟨h2, fun x hx => by have := hI.enc.emLt _ hmem x hx; omega⟩
  · intro a ha
    have ho := hI.acks.out a ha
    exact ⟨ho.1, fun x hx => by have := hI.knownLt x (ho.2.1 x hx); omega⟩

example : IdBytes [3, 4, 5, 90] ([0, 3, 0, 0, 0, 3, 2, 0, 1, 1, 0, 85] : List Byte) :=
  .cons (runs := [(2, 1), (1, 85)]) ⟨rfl, by decide, fun i r r' h1 h2 => by
    match i with
    | 0 => cases h1; cases h2; decide
    | 1 => cases h2
    | i + 2 => cases h1⟩
example : (writeIds [3, 4, 5, 90]).flatten = [0, 3, 0, 0, 0, 3, 2, 0, 1, 1, 0, 85] := by decide
example : (EPkt.repair ⟨7, [3, 4, 5, 90], 0x1234, [1, 2, 3]⟩).bytes =
    [1, 0, 0, 0, 7, 0, 3, 1, 2, 3, 0, 3, 0, 0, 0, 3, 2, 0, 1, 1, 0, 85, 0x12, 0x34, 0, 3, 1, 2, 3] := by decide
example : (writeAck ⟨[3], 258⟩).flatten = [0, 1, 2, 0, 1, 0, 0, 0, 3] := by decide

end Netcode
