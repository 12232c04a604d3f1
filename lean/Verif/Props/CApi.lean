import Verif.Spec.CApi
import Verif.Props.Wire
import Verif.Props.Packet

/-!
# Properties of the C interface (C36, C37, C48, C49)
-/

namespace Netcode

variable {w : Nat}

/-! ## C36 -/

/-- **C36.** Whatever the call, its result, the memory and the previous content of the error structure: when the C
function returns, the type is the class of what the C++ call threw, `ntc_no_error` if it threw nothing; the value
returned is that of the C++ call, or 0 after an error. -/
theorem C36_reports {α : Type} (lax alloc : Bool) (zero : α) (r : Except Thrown α) (h h' : Heap) (e e' : CError) (x : α)
    (hc : checkError lax alloc zero r h e = .ok (h', e', x)) :
    e'.ty = expectedType r ∧ x = expectedValue zero r := by
  cases r with
  | ok v => cases hc; exact ⟨rfl, rfl⟩
  | error t =>
    cases t with
    | packetType => cases hc; exact ⟨rfl, rfl⟩
    | overflow => cases hc; exact ⟨rfl, rfl⟩
    | badAlloc => cases hc; exact ⟨rfl, rfl⟩
    | std what =>
      simp only [checkError] at hc
      cases hd : heapDelete lax h e.msg with
      | error f => rw [hd] at hc; cases hc
      | ok g =>
        rw [hd] at hc
        cases alloc <;> cases hc <;> exact ⟨rfl, rfl⟩
    | other =>
      simp only [checkError] at hc
      cases hd : heapDelete lax h e.msg with
      | error f => rw [hd] at hc; cases hc
      | ok g => rw [hd] at hc; cases hc; exact ⟨rfl, rfl⟩

/-- **C36**, classified ends: the function does return, whatever the message field holds, and touches neither that
field nor the memory. -/
theorem C36_classified {α : Type} (lax alloc : Bool) (zero : α) (r : Except Thrown α) (h : Heap) (e : CError)
    (hr : Classified r) :
    checkError lax alloc zero r h e = .ok (h, ⟨expectedType r, e.msg⟩, expectedValue zero r) := by
  cases r with
  | ok v => rfl
  | error t => cases t <;> first | rfl | exact hr.elim

/-- **C36**, other ends: the function returns when the message is null. -/
theorem C36_unclassified {α : Type} (lax alloc : Bool) (zero : α) (r : Except Thrown α) (h : Heap) (e : CError)
    (hm : e.msg = none) : ∃ h' e', checkError lax alloc zero r h e = .ok (h', e', expectedValue zero r) := by
  cases r with
  | ok v => exact ⟨_, _, rfl⟩
  | error t =>
    cases t with
    | std what => simp only [checkError, hm, heapDelete]; cases alloc <;> exact ⟨_, _, rfl⟩
    | other => simp only [checkError, hm, heapDelete]; exact ⟨_, _, rfl⟩
    | packetType => exact ⟨_, _, rfl⟩
    | overflow => exact ⟨_, _, rfl⟩
    | badAlloc => exact ⟨_, _, rfl⟩

/-- **C36**, decoder: `ntc_decoder_add_packet` has the effect of the C++ call and reports its end. -/
theorem C36_decoder_add_packet (gf : GF w) (dbg : Bool) (clk : Clock) (lax alloc : Bool) (d d' : NDec) (p : List Byte)
    (h : Heap) (e : CError) :
    (∀ n, d.notify gf dbg clk p = .ok (d', .ok n) →
      cDecoderAddPacket gf dbg clk lax alloc d p h e = .ok (d', h, ⟨.noError, e.msg⟩, n)) ∧
    (d.notify gf dbg clk p = .ok (d', .error .packetType) →
      cDecoderAddPacket gf dbg clk lax alloc d p h e = .ok (d', h, ⟨.packetType, e.msg⟩, 0)) ∧
    (d.notify gf dbg clk p = .ok (d', .error .overflow) →
      cDecoderAddPacket gf dbg clk lax alloc d p h e = .ok (d', h, ⟨.overflow, e.msg⟩, 0)) ∧
    (∀ f, d.notify gf dbg clk p = .error f → cDecoderAddPacket gf dbg clk lax alloc d p h e = .error f) := by
  refine ⟨?_, ?_, ?_, ?_⟩ <;> intros <;> simp only [cDecoderAddPacket, *] <;> rfl

/-- **C36**, encoder: the same for `ntc_encoder_add_packet`. -/
theorem C36_encoder_add_packet (F : F64) (dbg lax alloc : Bool) (c c' : Enc) (p : List Byte) (h : Heap) (e : CError) :
    (∀ n, c.notify F dbg p = .ok (c', .ok n) →
      cEncoderAddPacket F dbg lax alloc c p h e = .ok (c', h, ⟨.noError, e.msg⟩, n)) ∧
    (c.notify F dbg p = .ok (c', .error .packetType) →
      cEncoderAddPacket F dbg lax alloc c p h e = .ok (c', h, ⟨.packetType, e.msg⟩, 0)) ∧
    (c.notify F dbg p = .ok (c', .error .overflow) →
      cEncoderAddPacket F dbg lax alloc c p h e = .ok (c', h, ⟨.overflow, e.msg⟩, 0)) ∧
    (∀ f, c.notify F dbg p = .error f → cEncoderAddPacket F dbg lax alloc c p h e = .error f) := by
  refine ⟨?_, ?_, ?_, ?_⟩ <;> intros <;> simp only [cEncoderAddPacket, *] <;> rfl

/-- **C36**, in terms of bytes: a packet whose first byte is not that of a source nor of a repair makes
`ntc_decoder_add_packet` return 0 with `ntc_packet_type_error` and changes nothing; a strict prefix of a source
packet makes it return 0 with `ntc_overflow_error`; a packet whose first byte is not that of an ack makes
`ntc_encoder_add_packet` return 0 with `ntc_packet_type_error` and changes nothing. -/
theorem C36_bytes (gf : GF w) (F : F64) (dbg : Bool) (clk : Clock) (lax alloc : Bool) (d : NDec) (c : Enc) (h : Heap)
    (e : CError) :
    (∀ b t, b ≠ 1#8 → b ≠ 2#8 →
      cDecoderAddPacket gf dbg clk lax alloc d (b :: t) h e = .ok (d, h, ⟨.packetType, e.msg⟩, 0)) ∧
    (∀ s : ESource, s.id < 2 ^ 32 → s.sym.length < 2 ^ 16 → ∀ k, 0 < k → k < (writeSource s).flatten.length →
      ∃ d', cDecoderAddPacket gf dbg clk lax alloc d ((writeSource s).flatten.take k) h e =
        .ok (d', h, ⟨.overflow, e.msg⟩, 0)) ∧
    (∀ b t, b ≠ 0#8 → cEncoderAddPacket F dbg lax alloc c (b :: t) h e = .ok (c, h, ⟨.packetType, e.msg⟩, 0)) := by
  refine ⟨?_, ?_, ?_⟩
  · intro b t h1 h2
    exact (C36_decoder_add_packet gf dbg clk lax alloc d d (b :: t) h e).2.1
      ((C14_decoder_routing gf dbg clk d b t).1 h1 h2)
  · intro s hi hl k hk hk2
    obtain ⟨d', hd, -⟩ := C13_truncated_source gf dbg clk d s hi hl k hk hk2
    exact ⟨d', (C36_decoder_add_packet gf dbg clk lax alloc d d' _ h e).2.2.1 hd⟩
  · intro b t h1
    exact (C36_encoder_add_packet F dbg lax alloc c c (b :: t) h e).2.1 ((C14_encoder_routing F dbg c b t).1 h1)

/-- **C36**, the calls that throw nothing: they reset the error. -/
theorem C36_resets (gf : GF w) (dbg lax alloc : Bool) (c c' : Enc) (d : NDec) (h : Heap) (e : CError) :
    (∀ b, c.commit gf dbg b = .ok c' → cEncoderAddData gf dbg lax alloc c b h e = .ok (c', h, ⟨.noError, e.msg⟩, ())) ∧
    (c.generateRepair gf dbg = .ok c' →
      cEncoderGenerateRepair gf dbg lax alloc c h e = .ok (c', h, ⟨.noError, e.msg⟩, ())) ∧
    cDecoderGenerateAck lax alloc d h e = .ok (d.generateAck, h, ⟨.noError, e.msg⟩, ()) := by
  refine ⟨?_, ?_, rfl⟩
  · intro b hb; simp only [cEncoderAddData, hb]; rfl
  · intro hb; simp only [cEncoderGenerateRepair, hb]; rfl

/-- A call after a failed one: a decoder is given an ack, then a source packet. -/
example : (do
    let (d, h, e, n) ← cDecoderAddPacket gf8 true (fun _ => 0) false true (NDec.init (fun _ => 0) true) [0#8] []
      ⟨.unknown, none⟩
    let (_, _, e', n') ← cDecoderAddPacket gf8 true (fun _ => 0) false true d [2, 0, 0, 0, 0, 0, 2, 7, 8] h e
    return (e.ty, n, e'.ty, n') : Out _).toOption = some (.packetType, 0, .noError, 9) := by decide +kernel

/-! ## C37 -/

/-- Two calls that end with a `std::exception` which is none of the classes (for instance `std::length_error`). -/
def twoFailures : List (Except Thrown Nat × Bool) := [(.error (.std [104#8, 105#8]), true), (.error (.std [104#8]), true)]

/-- **C37** fails: the message is allocated by `new char[]` and released by `delete` instead of `delete[]`
(check_error.hh:50-51), so the second such failure is undefined behaviour. -/
theorem C37_false_mismatch :
    callSeq false (0 : Nat) twoFailures ([], ⟨.noError, none⟩) = .error (.ub .mismatchedDelete) := rfl

/-- **C37** fails even if the allocator does not tell `delete` from `delete[]`: the message has no terminating NUL
(line 49 does not count it), so reading it as a string runs past its end, whatever the text. -/
theorem C37_false_unterminated (what : List Byte) (h : Heap) :
    (checkError true true 0 (.error (.std what)) h ⟨.noError, none⟩ >>= fun r =>
      cstring r.1 h.length) = .error (.ub .oobRead) ∨ 0#8 ∈ what := by
  by_cases hz : 0#8 ∈ what
  · exact .inr hz
  · left
    have go : ∀ l : List Byte, 0#8 ∉ l → cstring.go (l.map some) = .error (.ub .oobRead) := by
      intro l hl
      induction l with
      | nil => rfl
      | cons c t ih =>
        simp only [List.mem_cons, not_or] at hl
        simp only [List.map_cons, cstring.go]
        rw [if_neg (fun hc => hl.1 hc.symm), ih hl.2]; rfl
    simp only [checkError, heapDelete, bind, Except.bind, pure, Except.pure, if_true, cstring]
    simp [go what hz]

/-- **C37** fails even if the allocator does not tell `delete` from `delete[]`: after an exception of unknown type
the message is released but not set to null (line 61), and the next failure releases it again. -/
theorem C37_false_dangling :
    callSeq true (0 : Nat) [(.error (.std [104#8]), true), (.error .other, true)] ([], ⟨.noError, none⟩) =
      .ok ([⟨true, false, [some 104#8]⟩], ⟨.unknown, some 0⟩) ∧
    callSeq true (0 : Nat) [(.error (.std [104#8]), true), (.error .other, true), (.error .other, true)]
      ([], ⟨.noError, none⟩) = .error (.ub .useAfterFree) := ⟨rfl, rfl⟩

theorem callSeq_classified {α : Type} (lax : Bool) (zero : α) (cs : List (Except Thrown α × Bool)) (h : Heap)
    (e : CError) (hc : ∀ c ∈ cs, Classified c.1) :
    ∃ t, callSeq lax zero cs (h, e) = .ok (h, ⟨t, e.msg⟩) := by
  induction cs generalizing e with
  | nil => exact ⟨e.ty, rfl⟩
  | cons c cs ih =>
    obtain ⟨r, a⟩ := c
    simp only [callSeq]
    rw [C36_classified lax a zero r h e (hc (r, a) (by simp))]
    exact ih ⟨expectedType r, e.msg⟩ (fun c hm => hc c (List.mem_cons_of_mem _ hm))

theorem callSeq_append {α : Type} (lax : Bool) (zero : α) (cs ds : List (Except Thrown α × Bool)) (s : Heap × CError) :
    callSeq lax zero (cs ++ ds) s = callSeq lax zero cs s >>= callSeq lax zero ds := by
  induction cs generalizing s with
  | nil => rfl
  | cons c cs ih =>
    obtain ⟨r, a⟩ := c
    obtain ⟨h, e⟩ := s
    simp only [List.cons_append, callSeq]
    cases checkError lax a zero r h e with
    | error f => rfl
    | ok y => exact ih _

/-- **C37**, what holds: as long as all calls succeed or fail with an error that has a class of its own, which is all
that the encoder and the decoder throw, memory shortage included, the message is never touched, whatever it
was. -/
theorem C37_classified_partial {α : Type} (lax : Bool) (zero : α) (cs : List (Except Thrown α × Bool)) (h : Heap)
    (e : CError) (hc : ∀ c ∈ cs, Classified c.1) :
    ∃ e', callSeq lax zero cs (h, e) = .ok (h, e') ∧ e'.msg = e.msg := by
  obtain ⟨t, ht⟩ := callSeq_classified lax zero cs h e hc
  exact ⟨_, ht, rfl⟩

/-- **C37**, what holds: with a message that is null at first, one call that fails in any way is harmless; afterwards
the message is null or points to allocated memory that holds the text. -/
theorem C37_one_failure_partial {α : Type} (lax : Bool) (zero : α) (cs ds : List (Except Thrown α × Bool))
    (r : Except Thrown α) (alloc : Bool) (h : Heap) (e : CError) (hm : e.msg = none)
    (hc : ∀ c ∈ cs, Classified c.1) (hd : ∀ c ∈ ds, Classified c.1) :
    ∃ h' e', callSeq lax zero (cs ++ (r, alloc) :: ds) (h, e) = .ok (h', e') ∧ MsgOk h' e' ∧
      (∀ what, r = .error (.std what) → alloc = true →
        e'.msg = some h.length ∧ h'[h.length]? = some ⟨true, true, what.map some⟩) := by
  obtain ⟨t, ht⟩ := callSeq_classified lax zero cs h e hc
  rw [callSeq_append, ht]
  show ∃ h' e', callSeq lax zero ((r, alloc) :: ds) (h, ⟨t, e.msg⟩) = .ok (h', e') ∧ _
  rw [hm]
  simp only [callSeq]
  have fin : ∀ (g : Heap) (ty : ErrTy) (m : Option Nat), ∃ ty',
      callSeq lax zero ds (g, ⟨ty, m⟩) = .ok (g, ⟨ty', m⟩) := fun g ty m => callSeq_classified lax zero ds g ⟨ty, m⟩ hd
  cases r with
  | ok v =>
    obtain ⟨ty', h1⟩ := fin h .noError none
    exact ⟨h, _, h1, (by intro a ha; cases ha), (by intro what hw; cases hw)⟩
  | error x =>
    cases x with
    | packetType =>
      obtain ⟨ty', h1⟩ := fin h .packetType none
      exact ⟨h, _, h1, (by intro a ha; cases ha), (by intro what hw; cases hw)⟩
    | overflow =>
      obtain ⟨ty', h1⟩ := fin h .overflow none
      exact ⟨h, _, h1, (by intro a ha; cases ha), (by intro what hw; cases hw)⟩
    | badAlloc =>
      obtain ⟨ty', h1⟩ := fin h .noMemory none
      exact ⟨h, _, h1, (by intro a ha; cases ha), (by intro what hw; cases hw)⟩
    | other =>
      obtain ⟨ty', h1⟩ := fin h .unknown none
      exact ⟨h, _, h1, (by intro a ha; cases ha), (by intro what hw; cases hw)⟩
    | std what =>
      cases alloc with
      | false =>
        obtain ⟨ty', h1⟩ := fin h .unknown none
        exact ⟨h, _, h1, (by intro a ha; cases ha), (by intro what _ hw; cases hw)⟩
      | true =>
        obtain ⟨ty', h1⟩ := fin (h ++ [⟨true, true, what.map some⟩]) .unknown (some h.length)
        refine ⟨_, _, h1, ?_, ?_⟩
        · intro a ha
          cases ha
          exact ⟨⟨true, true, what.map some⟩, by simp, rfl⟩
        · intro what' hw _
          cases hw
          exact ⟨rfl, by simp⟩

example : ∃ h' e', callSeq false (0 : Nat)
    ([(.error .overflow, true), (.ok 4, true)] ++ (.error (.std [104#8]), true) :: [(.error .packetType, true)])
    ([], ⟨.noError, none⟩) = .ok (h', e') ∧ MsgOk h' e' := by
  obtain ⟨h', e', h1, h2, -⟩ := C37_one_failure_partial false (0 : Nat) [(.error .overflow, true), (.ok 4, true)]
    [(.error .packetType, true)] (.error (.std [104#8])) true [] ⟨.noError, none⟩ rfl
    (by intro c hc; simp at hc; rcases hc with rfl | rfl <;> trivial)
    (by intro c hc; simp at hc; subst hc; trivial)
  exact ⟨h', e', h1, h2⟩

/-! ## C48 -/

/-- **C48** fails: a constructor that throws ends the program instead of making the function return a null pointer. -/
theorem C48_false {α : Type} (x : Thrown) : cNew true (.error x : Except Thrown α) = .terminate := rfl

/-- **C48** fails, in terms of arguments: in a release build, with a field size that gf-complete refuses,
`ntc_new_encoder` and `ntc_new_decoder` end the program. -/
theorem C48_false_field (init : Nat → Bool) (size : BitVec 8) (hi : init size.toNat = false) :
    (gfCtor false init size).map (cNew true) = .ok .terminate := by
  simp only [gfCtor, cassert, bind, Except.bind, hi]; rfl

/-- **C48**, what holds: a null pointer is returned exactly when the memory of the object itself is refused, and an
object exactly when its constructor succeeded. -/
theorem C48_null_partial {α : Type} (alloc : Bool) (ctor : Except Thrown α) :
    (cNew alloc ctor = .null ↔ alloc = false) ∧ (∀ x, cNew alloc ctor = .obj x ↔ alloc = true ∧ ctor = .ok x) := by
  cases alloc <;> cases ctor <;> simp [cNew]

/-- **C48**, in terms of field sizes: a debug build fails an assertion for all sizes but 4, 8, 16 and 32; otherwise an object is made exactly if
gf-complete accepts the size, and the program ends if not. -/
theorem C48_field_partial (dbg : Bool) (init : Nat → Bool) (size : BitVec 8) :
    let valid := size.toNat = 4 ∨ size.toNat = 8 ∨ size.toNat = 16 ∨ size.toNat = 32
    let made := (gfCtor dbg init size).map (cNew true)
    (made = .error .assertion ↔ dbg = true ∧ ¬ valid) ∧
    (made = .ok (.obj ()) ↔ (dbg = false ∨ valid) ∧ init size.toNat = true) ∧
    (made = .ok .terminate ↔ (dbg = false ∨ valid) ∧ init size.toNat = false) := by
  intro valid made
  have hv : (size = 4#8 ∨ size = 8#8 ∨ size = 16#8 ∨ size = 32#8) ↔ valid := by
    simp only [valid, ← BitVec.toNat_inj]
    rfl
  have e : made = (gfCtor dbg init size).map (cNew true) := rfl
  clear_value made
  subst e
  cases dbg with
  | false =>
    cases hi : init size.toNat <;> simp [gfCtor, cassert, bind, Except.bind, hi, Except.map, pure, Except.pure, cNew]
  | true =>
    by_cases h : valid
    · cases hi : init size.toNat <;> simp [gfCtor, cassert, bind, Except.bind, hi, Except.map, pure, Except.pure, cNew, hv, h]
    · simp [gfCtor, cassert, bind, Except.bind, Except.map, cNew, hv, h]

example : (gfCtor true (fun _ => true) 8#8).map (cNew true) = .ok (.obj ()) ∧ (gfCtor true (fun _ => true) 5#8).map (cNew true) = .error .assertion := by
  decide

/-! ## C49 -/

/-- **C49.** The size of a packet made by the C functions is the one asked for, before and after any number of
resizes, and the bytes given to `ntc_new_packet_from` are kept up to the smallest size. -/
theorem C49_sizes (src : List Byte) (n : BitVec 16) (hn : n.toNat ≤ src.length) (ms : List (BitVec 16)) (m : BitVec 16)
    (h : Heap) (e : CError) :
    ∃ p, (do
        let p ← (cNewPacketFrom src n).toOption
        ms.foldlM (fun p m => (cPacketResize false true p m h e).toOption.map (·.1)) p) = some p ∧
      (∃ v, p.Sim v ∧ v.length = ((ms.getLast?).getD n).toNat ∧
        ∀ i, i < n.toNat → (∀ k ∈ ms, i < k.toNat) → v[i]? = some src[i]?) ∧
      cPacketGetSize p = (ms.getLast?).getD n ∧
      ∃ p', cPacketResize false true p m h e = .ok (p', h, ⟨.noError, e.msg⟩, ()) ∧ cPacketGetSize p' = m := by
  have size_of : ∀ {p : Packet} {v : List Cell} {k : BitVec 16}, p.Sim v → v.length = k.toNat → cPacketGetSize p = k := by
    intro p v k hs hv
    rw [cPacketGetSize, hs.sameAs.size, hv]; simp
  have step : ∀ {p : Packet} {v : List Cell} (k : BitVec 16), p.Sim v → ∃ p', 
      cPacketResize false true p k h e = .ok (p', h, ⟨.noError, e.msg⟩, ()) ∧
      p'.Sim (v.take k.toNat ++ List.replicate (k.toNat - v.length) none) := by
    intro p v k hs
    obtain ⟨p', h1, h2⟩ := VOp.sim hs (.resize k.toNat) (by simp only [VOp.want]; have := k.isLt; omega) rfl
    have h1 : p.resize k.toNat = .ok p' := h1
    refine ⟨p', ?_, h2⟩
    simp only [cPacketResize, h1]; rfl
  obtain ⟨p₀, h0, hs0⟩ := VNew.sim (.range (src.take n.toNat)) (by
    simp only [VNew.want, List.length_take]; have := n.isLt; omega)
  have h0 : cNewPacketFrom src n = .ok p₀ := h0
  have main : ∀ ms : List (BitVec 16), ∃ p, ms.foldlM (fun p m => (cPacketResize false true p m h e).toOption.map (·.1)) p₀
      = some p ∧ (∃ v, p.Sim v ∧ v.length = ((ms.getLast?).getD n).toNat ∧
        ∀ i, i < n.toNat → (∀ k ∈ ms, i < k.toNat) → v[i]? = some src[i]?) := by
    intro ms
    induction ms using List.reverseRecOn with
    | nil =>
      refine ⟨p₀, rfl, _, hs0, ?_, ?_⟩
      · simp only [VNew.vec, List.length_map, List.length_take, List.getLast?_nil, Option.getD_none]; omega
      · intro i hi _
        have hl : i < src.length := by omega
        simp only [VNew.vec, List.getElem?_map, List.getElem?_take, hi, if_true, List.getElem?_eq_getElem hl,
          Option.map_some]
    | append_singleton ms k ih =>
      obtain ⟨p, hp, v, hv, hl, hi⟩ := ih
      obtain ⟨p', h1, h2⟩ := step k hv
      refine ⟨p', ?_, _, h2, ?_, ?_⟩
      · rw [List.foldlM_append, hp]
        simp only [List.foldlM_cons, List.foldlM_nil, bind, Option.bind, h1]; rfl
      · simp only [List.length_append, List.length_take, List.length_replicate, List.getLast?_append,
          List.getLast?_singleton, Option.getD_some]
        simp; omega
      · intro i hin hk
        have hik : i < k.toNat := hk k (by simp)
        have := hi i hin (fun q hq => hk q (by simp [hq]))
        have hiv : i < v.length := by
          by_contra hc
          rw [List.getElem?_eq_none (by omega)] at this; cases this
        rw [List.getElem?_append_left (by simp; omega), List.getElem?_take, if_pos hik, this]
  obtain ⟨p, hp, hv⟩ := main ms
  refine ⟨p, by rw [h0]; exact hp, hv, ?_, ?_⟩
  · obtain ⟨v, hv, hl, -⟩ := hv
    exact size_of hv hl
  · obtain ⟨v, hv, hl, -⟩ := hv
    obtain ⟨p', h1, h2⟩ := step m hv
    refine ⟨p', h1, size_of h2 ?_⟩
    simp only [List.length_append, List.length_take, List.length_replicate]; omega

example : (3#16).toNat ≤ [1#8, 2#8, 3#8, 4#8].length := by decide

end Netcode
