import Verif.Proofs.Hostile
import Verif.Proofs.Check
import Verif.Proofs.DecLow

/-!
# C07: crafted packets
-/

namespace Netcode

variable {w : Nat}

/-- A repair packet of GF(2^8) that lists no source. -/
def emptyRepair : List Byte := [1, 0, 0, 0, 0, 0, 0, 0, 0, 0, 0]

/-- **C07 fails**: a well-formed repair packet that lists no source makes a new decoder read through `begin()` and
`rbegin()` of an empty set (in a debug build an assertion fails). -/
theorem C07_false_empty (clk : Clock) (io : Bool) :
    (NDec.init clk io).after gf8 false clk [.packet emptyRepair] = .error (.ub .derefEnd) ∧
    (NDec.init clk io).after gf8 true clk [.packet emptyRepair] = .error .assertion := by
  cases io <;> exact ⟨rfl, rfl⟩

/-- **C07 fails** whatever the decoder has received before, and for every field size: the same packet. -/
theorem C07_false_any (gf : GF w) (clk : Clock) (d : NDec) :
    d.act gf false clk (.packet emptyRepair) = .error (.ub .derefEnd) ∧
    d.act gf true clk (.packet emptyRepair) = .error .assertion := ⟨rfl, rfl⟩

/-- A repair of source 0 alone: one byte, encoded size 65535. -/
def longRepair : List Byte := [1, 0, 0, 0, 0, 0, 1, 7, 0, 1, 0, 0, 0, 0, 255, 255]

/-- **C07 fails**: the size decoded from a repair packet is not compared to the size of the packet; the decoder reads
beyond its end, in both builds. -/
theorem C07_false_read (dbg io : Bool) :
    (NDec.init (fun _ => 0) io).after gf8 dbg (fun _ => 0) [.packet longRepair] = .error (.ub .oobRead) :=
  eq_of_faultOf (by revert dbg io; decide +kernel)

/-- A source of 40 bytes, and a repair of sources 0 and 1 with one byte. -/
def bigSource : List Byte := [2, 0, 0, 0, 0, 0, 40] ++ List.replicate 40 1
def shortRepair : List Byte := [1, 0, 0, 0, 0, 0, 1, 7, 0, 2, 0, 0, 0, 0, 1, 0, 1, 0, 0]

/-- **C07 fails**: a source larger than the symbol of a repair that lists it is added beyond the end of the repair
packet (in a debug build an assertion fails). -/
theorem C07_false_write (io : Bool) :
    (NDec.init (fun _ => 0) io).after gf8 false (fun _ => 0) [.packet bigSource, .packet shortRepair] =
      .error (.ub .oobWrite) ∧
    (NDec.init (fun _ => 0) io).after gf8 true (fun _ => 0) [.packet bigSource, .packet shortRepair] =
      .error .assertion :=
  ⟨eq_of_faultOf (by revert io; decide +kernel), eq_of_faultOf (by revert io; decide +kernel)⟩

/-- A call that brings no repair: packets hold at least one byte, and those of type repair are truncated. -/
def DAct.NoRepair : DAct → Prop
  | .packet p => p ≠ [] ∧ (p.head? = some 1#8 → readRepair p = .error (.cpp .overflow))
  | .setAckNb n => 0 < n
  | _ => True

/-- **C07**, sources: whatever bytes a decoder is given, as long as none is a whole repair packet, no call fails.
Missing: histories with repair packets, for which the claim is false (above); for those of a genuine encoder see C05. -/
theorem C07_sources_safe_partial (gf : GF w) (dbg : Bool) (clk : Clock) (io : Bool) (acts : List DAct)
    (h : ∀ a ∈ acts, a.NoRepair) : ∃ d, (NDec.init clk io).after gf dbg clk acts = .ok d := by
  have step : ∀ (d : NDec) (a : DAct), SrcOnly d.det → a.NoRepair →
      ∃ d', d.act gf dbg clk a = .ok d' ∧ SrcOnly d'.det := by
    intro d a hd ha
    cases a with
    | packet p =>
      obtain ⟨hp, hr⟩ := ha
      simp only [NDec.act]
      by_cases h2 : getPacketType p = .ok .source
      · rw [NDec.notify_of_source gf dbg clk d h2]
        rcases readSource_total p with ⟨s, n, hs, _⟩ | hs
        · rw [hs]
          simp only
          obtain ⟨det', ho, hi⟩ := onSource_total gf dbg d.det s hd
          rw [ho]
          refine ⟨_, rfl, ?_⟩
          rw [(afterDet_step clk d.gotSource det' (onSource_ext ho).log).2.1]
          exact hi
        · rw [hs]; exact ⟨_, rfl, hd⟩
      · by_cases h1 : getPacketType p = .ok .repair
        · rw [NDec.notify_of_repair gf dbg clk d h1, hr (head_of_type h1)]
          exact ⟨_, rfl, hd⟩
        · rw [NDec.notify_of_other gf dbg clk d hp h2 h1]
          exact ⟨_, rfl, hd⟩
    | genAck => exact ⟨_, rfl, hd⟩
    | maybeAck =>
      refine ⟨_, rfl, ?_⟩
      show SrcOnly (d.maybeAckWith clk d.det.sources.keys).det
      rw [(maybeAckWith_frame clk d d.det.sources.keys).1]
      exact hd
    | setAckNb n =>
      simp only [NDec.act, NDec.setAckNb, cassert_ok _ (show decide (0 < n) = true by simpa [DAct.NoRepair] using ha)]
      exact ⟨_, rfl, hd⟩
    | setAckPeriod ms => exact ⟨_, rfl, hd⟩
  have all : ∀ (acts : List DAct) (d : NDec), SrcOnly d.det → (∀ a ∈ acts, a.NoRepair) →
      ∃ d', d.after gf dbg clk acts = .ok d' := by
    intro acts
    induction acts with
    | nil => intro d _ _; exact ⟨d, rfl⟩
    | cons a t ih =>
      intro d hd hall
      obtain ⟨d1, h1, i1⟩ := step d a hd (hall a (by simp))
      obtain ⟨d2, h2⟩ := ih d1 i1 (fun b hb => hall b (by simp [hb]))
      exact ⟨d2, after_cons.2 ⟨d1, h1, h2⟩⟩
  exact all acts _ ⟨rfl, rfl, List.Pairwise.nil, by simp [NDec.init, Dec.init], by simp [NDec.init, Dec.init]⟩ h

/-- Garbage, a truncated repair, sources in the wrong order and the last identifier. -/
example : (∀ a ∈ [DAct.packet [9, 9], .packet [1, 2, 3], .packet (bigSource), .packet [2, 255, 255, 255, 255, 0, 1, 5],
      .packet [2, 0, 0, 0, 1, 0, 0], .setAckNb 3, .genAck], a.NoRepair) ∧
    ((NDec.init (fun _ => 0) true).after gf8 true (fun _ => 0)
      [DAct.packet [9, 9], .packet [1, 2, 3], .packet (bigSource), .packet [2, 255, 255, 255, 255, 0, 1, 5],
      .packet [2, 0, 0, 0, 1, 0, 0], .setAckNb 3, .genAck]).toOption.map (fun d => (d.data, d.det.ordered)) =
      some ([List.replicate 40 1, []], [4294967295]) := by
  refine ⟨?_, by decide +kernel⟩
  intro a ha
  fin_cases ha
  · exact ⟨by simp, by decide⟩
  · exact ⟨by simp, fun _ => rfl⟩
  · exact ⟨by simp [bigSource], by decide⟩
  · exact ⟨by simp, by decide⟩
  · exact ⟨by simp, by decide⟩
  · show 0 < 3; decide
  · trivial

/-! ## C11: lists of identifiers in arbitrary bytes -/

theorem partialSums_lt (l : List Nat) (a : Nat) : ∀ x ∈ partialSums a l, x < 2 ^ 32 := by
  induction l generalizing a with
  | nil => intro x hx; cases hx
  | cons d t ih =>
    intro x hx
    rcases List.mem_cons.1 hx with rfl | hx
    · exact Nat.mod_lt _ (by decide)
    · exact ih _ x hx

/-- **C11**, whatever the bytes: a list of identifiers that is read from a packet, be it crafted, is a set of 32-bit
identifiers: strictly increasing, so that none is listed twice. -/
theorem C11_any_bytes_give_a_set {p : List Byte} {c c' : Cur} {ids : List Nat} (h : readIds p c = .ok (ids, c')) :
    Sorted ids ∧ ∀ x ∈ ids, x < 2 ^ 32 := by
  refine ⟨readIds_sorted h, ?_⟩
  rw [readIds_eq] at h
  obtain ⟨nb, _, -, h6⟩ := rbind_inv h
  split at h6
  · cases h6; intro x hx; cases hx
  · obtain ⟨_, _, -, h7⟩ := rbind_inv h6
    obtain ⟨_, _, -, h8⟩ := rbind_inv h7
    cases h8
    intro x hx
    rw [foldl_setInsert_mem] at hx
    exact partialSums_lt _ _ x (hx.resolve_left List.not_mem_nil)

/-- Two differences of 0 and one of 3 after the identifier 5: identifier 5 is listed once. -/
example : readIds [0, 3, 0, 0, 0, 5, 2, 0, 0, 1, 0, 3] ⟨0, 12⟩ = .ok ([5, 8], ⟨12, 0⟩) := by decide +kernel

/-- Sums wrap: 2^32 - 1 followed by 2 is 1. -/
example : readIds [0, 2, 255, 255, 255, 255, 1, 0, 2] ⟨0, 9⟩ = .ok ([1, 4294967295], ⟨9, 0⟩) := by decide +kernel

end Netcode
