import Verif.Props.Decoder
import Verif.Props.Crafted
import Verif.Proofs.Faults

/-!
# C07: what can go wrong in a decoder that is given any bytes
-/

namespace Netcode

variable {w : Nat}

/-- **C07**, what is left of it for any bytes: whatever a decoder is given, if a call fails, then by one of the faults of
`Spec/Faults.lean`. So a build with assertions never writes outside of a buffer, and with elements of 4 or 8 bits no length of a datum
is wrong for the arithmetic. Missing: the faults that remain (the theorems `C07_false_*` and the examples below). -/
theorem C07_faults_partial (gf : GF w) (dbg : Bool) (clk : Clock) (io : Bool) (acts : List DAct) (f : Fault)
    (h : (NDec.init clk io).after gf dbg clk acts = .error f) : DecFault w dbg f := by
  have key : ∀ (acts : List DAct) (d : NDec), InBuffer d.det.repairs → d.after gf dbg clk acts = .error f → DecFault w dbg f := by
    intro acts
    induction acts with
    | nil => intro d _ h; cases h
    | cons a t ih =>
      intro d hd h
      have ho := only_act gf dbg clk d a hd
      unfold NDec.after at h
      rw [List.foldlM_cons] at h
      revert ho
      cases ha : d.act gf dbg clk a with
      | ok d1 =>
        intro ho
        rw [ha] at h
        exact ih d1 ho h
      | error e =>
        intro ho
        rw [ha] at h
        cases h
        rcases ho with ho | rfl
        · exact ho
        · exfalso
          cases a with
          | packet p =>
            simp only [NDec.act] at ha
            refine C38_terminates gf dbg clk d p ?_
            revert ha
            cases d.notify gf dbg clk p with
            | error e => intro ha; cases ha; rfl
            | ok z => intro ha; cases ha
          | genAck => cases ha
          | maybeAck => cases ha
          | setAckNb n =>
            simp only [NDec.act, NDec.setAckNb, cassert] at ha
            split at ha <;> cases ha
          | setAckPeriod ms => cases ha
  exact key acts _ (by intro p hp; cases hp) h

/-- A made-up repair: no symbol, and all sizes 0. -/
def blank (id : Nat) (ids : List Nat) : DAct := .packet (writeRepair ⟨id, ids, 0#16, []⟩).flatten

/-- More repairs than unknown sources, made of made-up repairs. -/
def tooMany : List DAct :=
  [.packet [2, 0, 0, 0, 0, 0, 0], blank 0 [0, 1, 2, 3, 4], blank 1 [0, 1, 2, 3, 4], blank 2 [0, 1, 2, 3, 4], blank 3 [0, 4],
   blank 4 [0, 3], .packet [2, 0, 0, 0, 9, 0, 0]]

/-- Each of the faults does happen. Matrix entries that were not written: -/
example (io : Bool) : (NDec.init clk0 io).after gf8 false clk0 tooMany = .error (.ub .staleRead) ∧
    (NDec.init clk0 io).after gf8 true clk0 tooMany = .error .assertion :=
  ⟨eq_of_faultOf (by revert io; decide +kernel), eq_of_faultOf (by revert io; decide +kernel)⟩

/-- A size that is no whole number of elements of 16 bits, in both builds: -/
example (dbg io : Bool) : (NDec.init clk0 io).after gf16 dbg clk0
    [.packet [2, 0, 0, 0, 0, 0, 1, 5], .packet (writeRepair ⟨0, [0, 1], 0#16, [1, 2]⟩).flatten] = .error (.ub .misaligned) :=
  eq_of_faultOf (by revert dbg io; decide +kernel)

/-- An iterator whose element is gone, in both builds: -/
example (dbg io : Bool) : (NDec.init clk0 io).after gf8 dbg clk0
    [blank 1 [1, 2, 3], blank 0 [0, 1, 2], .packet [2, 0, 0, 0, 1, 0, 0], .packet [2, 0, 0, 0, 2, 0, 0]] = .error (.ub .dangling) :=
  eq_of_faultOf (by revert dbg io; decide +kernel)

/-- A source that is looked for and not found, in both builds: -/
example (dbg io : Bool) : (NDec.init clk0 io).after gf8 dbg clk0
    [.packet [2, 0, 0, 0, 0, 0, 0], blank 0 [0, 1, 2], blank 1 [0, 2], blank 2 [5, 6]] = .error (.ub .derefEnd) :=
  eq_of_faultOf (by revert dbg io; decide +kernel)

end Netcode
