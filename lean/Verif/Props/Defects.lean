import Verif.Proofs.Check
import Verif.Spec.Observe
import Verif.Spec.Rank
import Verif.Proofs.DecPrim

/-!
# Defects of the code

Executions of an honest encoder/decoder pair over a network that only loses, duplicates or reorders packets, which
refute the unrestricted form of several properties.  They show that the limits of `Verif/Spec/Schedule.lean` are
needed: each of them leaves out one of these executions.
-/

namespace Netcode

/-- The datum committed as source `n`. -/
def dat (n : Nat) : List Byte := [BitVec.ofNat 8 (10 + n), BitVec.ofNat 8 n]

/-! ## C01: repairs that arrive in the wrong order

A repair that is reduced to one source decodes it, but the missing source is erased before `add_source_recursive`
is called (detail/decoder.cc:138-146), which then removes it from no other repair.  A repair received earlier goes
on encoding a source that is no longer missing, and the next full decoding uses it as if it did not. -/

/-- Packets: 0 source 0, 1 repair {0}, 2 source 1, 3 source 2, 4 and 5 repairs {0,1,2}. -/
def corruptActs : List Act :=
  [.setRate 100, .commit (dat 0), .repair, .commit (dat 1), .commit (dat 2), .repair, .repair,
   .deliver 4, .deliver 1, .deliver 5]

/-- **C01 fails**: in both builds a datum that was never committed is handed over. -/
theorem C01_false (dbg : Bool) :
    ¬ ∀ s, AnyReach (cfg8 dbg) false s → ∀ d ∈ s.dec.data, d ∈ s.committed := by
  intro h
  have h1 := h (anyReached (cfg8 dbg) false corruptActs) (anyReached_reach (by clear h; revert dbg; decide +kernel))
  clear h; revert h1
  revert dbg
  decide +kernel

/-! ## C43: the same defect, before it does harm -/

/-- The packets above, but for the last one. -/
def staleActs : List Act :=
  [.setRate 100, .commit (dat 0), .repair, .commit (dat 1), .commit (dat 2), .repair, .repair, .deliver 4, .deliver 1]

/-- **C43 fails**: the decoder holds a repair that lists a source which it knows and which is not missing. -/
theorem C43_false (dbg : Bool) :
    ∃ s, AnyReach (cfg8 dbg) false s ∧ s.dec.det.Holds 0 ∧ 0 ∉ s.dec.det.missing.keys ∧ ∃ q ∈ s.dec.det.repairs, 0 ∈ q.2.ids :=
  ⟨anyReached (cfg8 dbg) false staleActs, anyReached_reach (by revert dbg; decide +kernel), by revert dbg; decide +kernel,
    by revert dbg; decide +kernel, by revert dbg; decide +kernel⟩

/-! ## C02: repairs that arrive in the wrong order

An older repair moves the start of the window back (detail/decoder.cc:345), so that outdated sources count as
missing again and are decoded and handed over a second time. -/

/-- Packets: 0 source 0, 1 source 1, 2 repair {0,1}, 3 source 2, 4 repair {1,2}. -/
def twiceActs : List Act :=
  [.setRate 2, .setWindow 2, .commit (dat 0), .commit (dat 1), .commit (dat 2), .repair,
   .deliver 0, .deliver 1, .deliver 3, .deliver 4, .deliver 2]

/-- **C02 fails**: source 0 is handed over twice. -/
theorem C02_false (dbg : Bool) :
    ¬ ∀ s, AnyReach (cfg8 dbg) false s → ∀ d, s.dec.data.count d ≤ s.committed.count d := by
  intro h
  have h1 := h (anyReached (cfg8 dbg) false twiceActs) (anyReached_reach (by clear h; revert dbg; decide +kernel)) (dat 0)
  clear h; revert h1
  revert dbg
  decide +kernel

/-! ## C03 -/

/-- The same packets, delivered in another order. -/
def swapActs : List Act :=
  [.setRate 2, .setWindow 2, .commit (dat 0), .commit (dat 1), .commit (dat 2), .repair,
   .deliver 4, .deliver 2, .deliver 3, .deliver 4]

/-- **C03 fails**: with ordering, the data are handed over in the order 1, 2, 0. -/
theorem C03_false (dbg : Bool) :
    ¬ ∀ s, AnyReach (cfg8 dbg) true s → s.dec.data.Sublist s.committed := by
  intro h
  have h1 := h (anyReached (cfg8 dbg) true swapActs) (anyReached_reach (by clear h; revert dbg; decide +kernel))
  clear h; revert h1
  revert dbg
  decide +kernel

/-! ## C04: a source overtaken by a repair, with ordering

The arriving source 3 reduces the repair to source 2, which is decoded and handed over by the recursive call.  It
makes source 3 the first missing one, but source 3 is stored only afterwards, and then only sources *beyond* the
first missing one are remembered (detail/decoder.cc:313, 332-336): source 3 is never handed over. -/

/-- Packets: 0-3 sources 0-3, 4 repair {0,1,2,3}; source 2 is lost. -/
def dropActs : List Act :=
  [.setRate 4, .commit (dat 0), .commit (dat 1), .commit (dat 2), .commit (dat 3),
   .deliver 0, .deliver 4, .deliver 1, .deliver 3]

/-- **C04 fails**: source 3 is held, every older one is handed over, and it is not. -/
theorem C04_false (dbg : Bool) :
    ¬ ∀ s, AnyReach (cfg8 dbg) true s → ∀ x, s.dec.det.Holds x → x ∉ s.dec.det.handed →
      ∃ y < x, ¬ s.dec.det.Knows y ∧ ¬ s.dec.det.Outdated y := by
  intro h
  have h1 := h (anyReached (cfg8 dbg) true dropActs) (anyReached_reach (by clear h; revert dbg; decide +kernel)) 3
    (by clear h; revert dbg; decide +kernel) (by clear h; revert dbg; decide +kernel)
  clear h; revert h1
  revert dbg
  decide +kernel

/-! ## C05 -/

/-- Packets: 0-2 sources 0-2, 3 repair {0,1,2}, 4 source 3, 5 repair {1,2,3}. -/
def danglingActs : List Act :=
  [.setRate 100, .setWindow 3, .commit (dat 0), .commit (dat 1), .commit (dat 2), .repair, .commit (dat 3), .repair,
   .deliver 5, .deliver 3, .deliver 1]

/-- **C05 fails**: in both builds the scan of the missing sources (detail/decoder.cc:281-325) goes on with an
iterator whose element a recursive call erased. -/
theorem C05_false_dangling (dbg : Bool) :
    ∃ s a, AnyReach (cfg8 dbg) false s ∧ ApiOk 8 s a ∧ s.step (cfg8 dbg) a = .error (.ub .dangling) :=
  ⟨anyReached (cfg8 dbg) false danglingActs, .deliver 2,
    anyReached_reach (by revert dbg; decide +kernel), trivial, eq_of_faultOf (by revert dbg; decide +kernel)⟩

/-- Packets: 0 source 0, 1 source 1, 2 repair {0,1}, 3 source 2, 4 source 3, 5 repair {0,1,2,3}. -/
def assertActs : List Act :=
  [.setRate 2, .commit (dat 0), .commit (dat 1), .commit (dat 2), .commit (dat 3), .deliver 2, .deliver 5, .deliver 1]

/-- **C05 fails**: an assertion fails in a debug build. -/
theorem C05_false_assertion :
    ∃ s a, AnyReach (cfg8 true) false s ∧ ApiOk 8 s a ∧ s.step (cfg8 true) a = .error .assertion :=
  ⟨anyReached (cfg8 true) false assertActs, .deliver 0,
    anyReached_reach (by decide +kernel), trivial, eq_of_faultOf (by decide +kernel)⟩

/-- Six commits, packet 8 being the repair of all of them. -/
def derefActs : List Act :=
  [.setRate 2, .commit (dat 0), .commit (dat 1), .commit (dat 2), .commit (dat 3), .commit (dat 4), .commit (dat 5),
   .deliver 2, .deliver 5, .deliver 1, .deliver 0]

/-- **C05 fails**: the same in a release build ends with the dereference of `end()`. -/
theorem C05_false_deref :
    ∃ s a, AnyReach (cfg8 false) false s ∧ ApiOk 8 s a ∧ s.step (cfg8 false) a = .error (.ub .derefEnd) :=
  ⟨anyReached (cfg8 false) false derefActs, .deliver 8,
    anyReached_reach (by decide +kernel), trivial, eq_of_faultOf (by decide +kernel)⟩

/-! ## Field size 32: encoded sizes lose their upper bits

The size of a datum is a 16-bit number, its product with a coefficient of GF(2^32) is not, and only the lower 16 bits
of it are kept (detail/encoder.cc:38, 62, detail/galois_field.hh:96-120). -/

/-- One datum and 128 repairs of it: packet 128 is repair 127. -/
def wideActs : List Act := [.setRate 1000, .commit [1, 2, 3, 4]] ++ List.replicate 128 .repair

/-- **C05 fails** with field size 32, without any reordering: the size recovered is too large. -/
theorem C05_false_w32 (dbg : Bool) :
    ∃ s a, AnyReach (cfg32 dbg) false s ∧ ApiOk 32 s a ∧ s.step (cfg32 dbg) a = .error (.ub .oobRead) :=
  ⟨anyReached (cfg32 dbg) false wideActs, .deliver 128,
    anyReached_reach (by revert dbg; decide +kernel), trivial, eq_of_faultOf (by revert dbg; decide +kernel)⟩

/-- Window of one source; packet 62 is source 31, of 36 bytes, packet 63 repair 31 of that source. -/
def shortActs : List Act :=
  [.setRate 1000, .setWindow 1, .commit [1, 2, 3, 4]] ++ List.replicate 31 .repair ++
    List.replicate 30 (.commit [5, 6, 7, 8]) ++ [.commit (List.replicate 36 9), .repair]

/-- **C01 and C19 fail** with field size 32, without any reordering: the only packet that arrives is a repair of source
31 alone, 36 bytes long, and the decoder hands over 4 bytes. -/
theorem C01_false_w32 (dbg : Bool) :
    ∃ s, AnyReach (cfg32 dbg) false s ∧ s.hist = [63] ∧ s.committed[31]? = some (List.replicate 36 9) ∧
      s.dec.data = [[9, 9, 9, 9]] ∧ ([9, 9, 9, 9] : List Byte) ∉ s.committed :=
  ⟨anyReached (cfg32 dbg) false (shortActs ++ [.deliver 63]), anyReached_reach (by revert dbg; decide +kernel),
    by revert dbg; decide +kernel, by revert dbg; decide +kernel, by revert dbg; decide +kernel,
    by revert dbg; decide +kernel⟩

/-- **C19 fails** with field size 32: the repair lists one source, unknown, which is not recovered. -/
theorem C19_false_w32 (dbg : Bool) :
    ∃ s s' r, AnyReach (cfg32 dbg) false s ∧ s.enc.out[63]? = some (.repair r) ∧ r.ids = [31] ∧
      s.step (cfg32 dbg) (.deliver 63) = .ok s' ∧ ¬ s'.dec.det.HasData 31 (s.committed.getD 31 []) := by
  have h0 : (runAny (cfg32 dbg) (Sys.init (cfg32 dbg).clk false) shortActs).isSome = true := by
    revert dbg; decide +kernel
  have h1 : (match (anyReached (cfg32 dbg) false shortActs).enc.out[63]? with
      | some (EPkt.repair r) => decide (r.ids = [31]) | _ => false) = true := by clear h0; revert dbg; decide +kernel
  have h2 : ((anyReached (cfg32 dbg) false shortActs).step (cfg32 dbg) (.deliver 63)).toOption.any (fun s' =>
      !decide (s'.dec.det.HasData 31 ((anyReached (cfg32 dbg) false shortActs).committed.getD 31 []))) = true := by
    clear h0 h1; revert dbg; decide +kernel
  split at h1
  · rename_i r hr
    cases hs : (anyReached (cfg32 dbg) false shortActs).step (cfg32 dbg) (.deliver 63) with
    | error f => rw [hs] at h2; cases h2
    | ok s' =>
      rw [hs] at h2
      exact ⟨_, s', r, anyReached_reach h0, hr, by simpa using h1, hs,
        by simpa only [Except.toOption, Option.any_some, Bool.not_eq_true', decide_eq_false_iff_not] using h2⟩
  · cases h1

/-- **C20 fails** with field size 32: one repair and one unknown source, whose coefficient is not zero. -/
theorem C20_false_w32 (dbg : Bool) :
    ∃ s s' r, AnyReach (cfg32 dbg) false s ∧ s.enc.out[63]? = some (.repair r) ∧ 63 ∉ s.hist ∧ s.dec.det.repairs = [] ∧
      r.ids.filter (fun x => decide (¬ s.dec.det.Knows x)) = [31] ∧
      Independent (cfg32 dbg).gf (rowsFor 31 s.dec.det.repairs r.id r.ids) [31] ∧
      s.step (cfg32 dbg) (.deliver 63) = .ok s' ∧ ¬ s'.dec.det.HasData 31 (s.committed.getD 31 []) := by
  have h0 : (runAny (cfg32 dbg) (Sys.init (cfg32 dbg).clk false) shortActs).isSome = true := by
    revert dbg; decide +kernel
  have h1 : (match (anyReached (cfg32 dbg) false shortActs).enc.out[63]? with
      | some (EPkt.repair r) => decide (r.ids = [31]) | _ => false) = true := by clear h0; revert dbg; decide +kernel
  have h2 : ((anyReached (cfg32 dbg) false shortActs).step (cfg32 dbg) (.deliver 63)).toOption.any (fun s' =>
      !decide (s'.dec.det.HasData 31 ((anyReached (cfg32 dbg) false shortActs).committed.getD 31 []))) = true := by
    clear h0 h1; revert dbg; decide +kernel
  have h3 : (anyReached (cfg32 dbg) false shortActs).hist = [] ∧ (anyReached (cfg32 dbg) false shortActs).dec.det.repairs.length = 0 ∧
      ¬ (anyReached (cfg32 dbg) false shortActs).dec.det.Knows 31 := by clear h0 h1 h2; revert dbg; decide +kernel
  split at h1
  · rename_i r hr
    obtain ⟨h4, h5, h6⟩ := h3
    have h5 := List.length_eq_zero_iff.1 h5
    have h1 : r.ids = [31] := by simpa using h1
    cases hs : (anyReached (cfg32 dbg) false shortActs).step (cfg32 dbg) (.deliver 63) with
    | error f => rw [hs] at h2; cases h2
    | ok s' =>
      rw [hs] at h2
      refine ⟨_, s', r, anyReached_reach h0, hr, by rw [h4]; simp, h5, by rw [h1]; simp [h6], ?_, hs,
        by simpa only [Except.toOption, Option.any_some, Bool.not_eq_true', decide_eq_false_iff_not] using h2⟩
      rw [h5, h1]
      intro v hv x hx
      have h7 := hv (r.id, [31]) (by simp [rowsFor])
      have : Fact (0 < 32) := ⟨by decide⟩
      simp only [List.mem_singleton] at hx
      subst hx
      have h8 : (cfg32 dbg).gf.mul (coefficient 32 r.id 31) (v 31) = 0#32 := by simpa [xorOver] using h7
      exact ((cfg32 dbg).gf.mul_eq_zero.1 h8).resolve_left (coefficient_ne_zero (by decide) _ _)
  · cases h1

end Netcode
