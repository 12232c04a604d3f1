import Verif.Spec.CProg
import Verif.Props.CApi
import Verif.Props.Length

/-!
# C85: a C program does what the C++ program does
-/

set_option linter.unusedSectionVars false

namespace Netcode

variable {w : Nat} {c : Cfg w} {lax alloc : Bool}

theorem cellBytes_map (l : List Byte) : cellBytes (l.map some) = .ok l := by
  induction l with
  | nil => rfl
  | cons b l ih =>
    simp only [List.map_cons, cellBytes, ih]
    rfl

/-- A packet that was made by the library, or moved from. -/
def PktC (p : Packet) : Prop := p = Packet.movedFrom ∨ ∃ v, p.Sim v ∧ v.length < 2 ^ 16

theorem pktC_resize {p : Packet} (hp : PktC p) (n : BitVec 16) (h : Heap) (e : CError) :
    ∃ p' v, cPacketResize lax alloc p n h e = .ok (p', h, ⟨.noError, e.msg⟩, ()) ∧ p'.Sim v ∧ v.length = n.toNat := by
  have hn := n.isLt
  rcases hp with rfl | ⟨v, hv, hl⟩
  · obtain ⟨b, h1⟩ : ∃ b, Packet.movedFrom.resize n.toNat = .ok b ∧ b = ⟨List.replicate (n.toNat + 9) none⟩ := by
      refine ⟨_, ?_, rfl⟩
      have h2 : Pkt.wrap64 (n.toNat + Pkt.shift) = n.toNat + 9 := by
        unfold Pkt.wrap64 Pkt.shift Pkt.alignment Pkt.headers
        rw [Nat.mod_eq_of_lt (by omega)]
      simp only [Packet.resize, h2, Packet.movedFrom, vecResize, vecMax]
      rw [if_neg (by omega), if_neg (by simp)]
      rfl
    refine ⟨b, List.replicate n.toNat none, ?_, ⟨List.replicate 9 none, by simp, ?_, ?_⟩, by simp⟩
    · simp only [cPacketResize, h1.1]; rfl
    · rw [h1.2]
      show List.replicate _ _ = _
      rw [← List.replicate_add, Nat.add_comm]
    · simp; omega
  · obtain ⟨p', h1, h2⟩ := VOp.sim hv (.resize n.toNat) (by simp only [VOp.want]; omega) rfl
    have h1 : p.resize n.toNat = .ok p' := h1
    refine ⟨p', _, ?_, h2, ?_⟩
    · simp only [cPacketResize, h1]; rfl
    · simp only [VOp.vec, List.length_append, List.length_take, List.length_replicate]; omega

theorem pktC_fill {p : Packet} {v : List Cell} (hp : p.Sim v) {l : List Byte} (hl : v.length = l.length) (hs : l.length < 2 ^ 16) :
    ∃ b, memcpyTo p.buf Packet.beginOff l = .ok b ∧ Packet.bytes ⟨b⟩ = .ok l ∧ PktC ⟨b⟩ := by
  obtain ⟨pre, h1, h2, h3⟩ := hp
  have h9 : Packet.beginOff = 9 := rfl
  have hsim : Packet.Sim ⟨pre ++ l.map some⟩ (l.map some) := ⟨pre, h1, rfl, by simpa [← hl] using h3⟩
  have hsa := hsim.sameAs
  refine ⟨pre ++ l.map some, ?_, ?_, .inr ⟨_, hsim, by simpa using hs⟩⟩
  · rw [h2, h9]
    unfold memcpyTo vecCopy
    rw [if_pos (by simp [h1, hl])]
    simp [h1, hl, List.take_append, List.drop_append]
  · unfold Packet.bytes
    rw [hsa.data, if_pos hsa.size.symm, cellBytes_map]

theorem run_cons {t t' : CProg} {k : CCall} {n : Nat} (h : t.call c lax alloc k = .ok (t', n)) (l : List CCall) :
    t.run c lax alloc (k :: l) = t'.run c lax alloc l := by
  unfold CProg.run
  rw [List.foldlM_cons, h]
  rfl

theorem run_cons_error {t : CProg} {k : CCall} {f : Fault} (h : t.call c lax alloc k = .error f) (l : List CCall) :
    t.run c lax alloc (k :: l) = .error f := by
  unfold CProg.run
  rw [List.foldlM_cons, h]
  rfl

theorem run_one (t : CProg) (k : CCall) : t.run c lax alloc [k] = (t.call c lax alloc k).map (·.1) := by
  unfold CProg.run
  rw [List.foldlM_cons]
  cases t.call c lax alloc k <;> rfl

theorem call_pktResize {t : CProg} {n : BitVec 16} {p : Packet} {h : Heap} {e : CError}
    (h1 : cPacketResize lax alloc t.pkt n t.heap t.err = .ok (p, h, e, ())) :
    t.call c lax alloc (.pktResize n) = .ok ({ t with pkt := p, heap := h, err := e }, 0) := by
  simp only [CProg.call, h1]; rfl

theorem call_pktWrite {t : CProg} {l : List Byte} {b : List Cell} (h1 : memcpyTo t.pkt.buf Packet.beginOff l = .ok b) :
    t.call c lax alloc (.pktWrite l) = .ok ({ t with pkt := ⟨b⟩ }, 0) := by
  simp only [CProg.call, h1]; rfl

theorem run_one_ok {t t' : CProg} {k : CCall} {n : Nat} (h : t.call c lax alloc k = .ok (t', n)) :
    t.run c lax alloc [k] = .ok t' := by
  rw [run_one, h]
  rfl

theorem run_one_error {t : CProg} {k : CCall} {f : Fault} (h : t.call c lax alloc k = .error f) :
    t.run c lax alloc [k] = .error f := by
  rw [run_one, h]
  rfl

/-- The three calls that hand bytes to the library, whatever the packet held and was used for before. -/
theorem sendC_run {t : CProg} (hp : PktC t.pkt) {l : List Byte} (hs : l.length < 2 ^ 16) (k : CCall) :
    ∃ p, Packet.bytes p = .ok l ∧ PktC p ∧ t.run c lax alloc (sendC k l) =
      ({ t with pkt := p, err := ⟨.noError, t.err.msg⟩ } : CProg).run c lax alloc [k] := by
  obtain ⟨p', v, h1, h2, h3⟩ := pktC_resize (lax := lax) (alloc := alloc) hp (BitVec.ofNat 16 l.length) t.heap t.err
  rw [BitVec.toNat_ofNat, Nat.mod_eq_of_lt hs] at h3
  obtain ⟨b, h4, h5, h6⟩ := pktC_fill h2 h3 hs
  refine ⟨⟨b⟩, h5, h6, ?_⟩
  unfold sendC
  rw [run_cons (call_pktResize h1), run_cons (call_pktWrite h4)]

theorem ok_bind' {α β : Type} (a : α) (f : α → Out β) : ((Except.ok a : Out α) >>= f) = f a := rfl

theorem error_bind' {α β : Type} (a : Fault) (f : α → Out β) : ((Except.error a : Out α) >>= f) = .error a := rfl

theorem call_addToDec_ok {t : CProg} {l : List Byte} {d : NDec} {h : Heap} {e : CError} {n : Nat} (h1 : t.pkt.bytes = .ok l)
    (h2 : cDecoderAddPacket c.gf c.dbg c.clk lax alloc t.dec l t.heap t.err = .ok (d, h, e, n)) :
    t.call c lax alloc .addToDec =
      .ok ({ t with dec := d, pkt := t.pkt.given e, heap := h, err := e }, n) := by
  rw [CProg.call, h1, ok_bind', h2]
  rfl

theorem call_addToDec_error {t : CProg} {l : List Byte} {f : Fault} (h1 : t.pkt.bytes = .ok l)
    (h2 : cDecoderAddPacket c.gf c.dbg c.clk lax alloc t.dec l t.heap t.err = .error f) :
    t.call c lax alloc .addToDec = .error f := by
  rw [CProg.call, h1, ok_bind', h2]
  rfl

theorem call_addToDec {t : CProg} {l : List Byte} (h1 : t.pkt.bytes = .ok l) :
    (∀ f, t.dec.notify c.gf c.dbg c.clk l = .error f → t.call c lax alloc .addToDec = .error f) ∧
    (∀ d n, t.dec.notify c.gf c.dbg c.clk l = .ok (d, .ok n) →
      t.call c lax alloc .addToDec = .ok ({ t with dec := d, pkt := Packet.movedFrom, err := ⟨.noError, t.err.msg⟩ }, n)) ∧
    (∀ d x, t.dec.notify c.gf c.dbg c.clk l = .ok (d, .error x) →
      ∃ ty, t.call c lax alloc .addToDec = .ok ({ t with dec := d, err := ⟨ty, t.err.msg⟩ }, 0)) := by
  refine ⟨fun f h => ?_, fun d n h => ?_, fun d x h => ?_⟩
  · exact call_addToDec_error h1 ((C36_decoder_add_packet c.gf c.dbg c.clk lax alloc t.dec t.dec l t.heap t.err).2.2.2 f h)
  · rw [call_addToDec_ok h1 ((C36_decoder_add_packet c.gf c.dbg c.clk lax alloc t.dec d l t.heap t.err).1 n h)]
    rfl
  · cases x with
    | packetType =>
      refine ⟨.packetType, ?_⟩
      rw [call_addToDec_ok h1 ((C36_decoder_add_packet c.gf c.dbg c.clk lax alloc t.dec d l t.heap t.err).2.1 h)]
      rfl
    | overflow =>
      refine ⟨.overflow, ?_⟩
      rw [call_addToDec_ok h1 ((C36_decoder_add_packet c.gf c.dbg c.clk lax alloc t.dec d l t.heap t.err).2.2.1 h)]
      rfl

theorem call_addToEnc_ok {t : CProg} {l : List Byte} {d : Enc} {h : Heap} {e : CError} {n : Nat} (h1 : t.pkt.bytes = .ok l)
    (h2 : cEncoderAddPacket c.F c.dbg lax alloc t.enc l t.heap t.err = .ok (d, h, e, n)) :
    t.call c lax alloc .addToEnc = .ok ({ t with enc := d, heap := h, err := e }, n) := by
  rw [CProg.call, h1, ok_bind', h2]
  rfl

theorem call_addToEnc_error {t : CProg} {l : List Byte} {f : Fault} (h1 : t.pkt.bytes = .ok l)
    (h2 : cEncoderAddPacket c.F c.dbg lax alloc t.enc l t.heap t.err = .error f) :
    t.call c lax alloc .addToEnc = .error f := by
  rw [CProg.call, h1, ok_bind', h2]
  rfl

theorem call_addToEnc {t : CProg} {l : List Byte} (h1 : t.pkt.bytes = .ok l) :
    (∀ f, t.enc.notify c.F c.dbg l = .error f → t.call c lax alloc .addToEnc = .error f) ∧
    (∀ d r, t.enc.notify c.F c.dbg l = .ok (d, r) →
      ∃ ty n, t.call c lax alloc .addToEnc = .ok ({ t with enc := d, err := ⟨ty, t.err.msg⟩ }, n)) := by
  refine ⟨fun f h => ?_, fun d r h => ?_⟩
  · exact call_addToEnc_error h1 ((C36_encoder_add_packet c.F c.dbg lax alloc t.enc t.enc l t.heap t.err).2.2.2 f h)
  · cases r with
    | ok n => exact ⟨_, _, call_addToEnc_ok h1 ((C36_encoder_add_packet c.F c.dbg lax alloc t.enc d l t.heap t.err).1 n h)⟩
    | error x => cases x with
      | packetType =>
        exact ⟨_, _, call_addToEnc_ok h1 ((C36_encoder_add_packet c.F c.dbg lax alloc t.enc d l t.heap t.err).2.1 h)⟩
      | overflow =>
        exact ⟨_, _, call_addToEnc_ok h1 ((C36_encoder_add_packet c.F c.dbg lax alloc t.enc d l t.heap t.err).2.2.1 h)⟩

/-- The objects of a C program that has done what the closed system did. -/
structure AsSys (t0 t : CProg) (s : Sys) : Prop where
  enc : t.enc = s.enc
  dec : t.dec = s.dec
  pkt : PktC t.pkt
  data : t.data.length < 2 ^ 16
  heap : t.heap = t0.heap
  msg : t.err.msg = t0.err.msg

/-- The calls that commit a datum, whatever the data object held and was used for before. -/
theorem commitC_run {t : CProg} (hv : t.data.length < 2 ^ 16) {d : List Byte} (hs : d.length < 2 ^ 16) :
    (∀ e, t.enc.commit c.gf c.dbg d = .ok e → t.run c lax alloc (toC (Sys.init c.clk true) (.commit d)) =
      .ok { t with enc := e, data := [], err := ⟨.noError, t.err.msg⟩ }) ∧
    (∀ f, t.enc.commit c.gf c.dbg d = .error f → t.run c lax alloc (toC (Sys.init c.clk true) (.commit d)) = .error f) := by
  obtain ⟨v, h1, h2⟩ : ∃ v, vecResize t.data (BitVec.ofNat 16 d.length).toNat none = .ok v ∧ v.length = d.length := by
    rw [BitVec.toNat_ofNat, Nat.mod_eq_of_lt hs]
    unfold vecResize vecMax
    rw [if_neg (by omega)]
    split
    · exact ⟨_, rfl, by rw [List.length_take]; omega⟩
    · exact ⟨_, rfl, by rw [List.length_append, List.length_replicate]; omega⟩
  have k1 : t.call c lax alloc (.dataResize (BitVec.ofNat 16 d.length)) = .ok ({ t with data := v, err := ⟨.noError, t.err.msg⟩ }, 0) := by
    simp only [CProg.call, cDataResize, h1]; rfl
  have k2 : ({ t with data := v, err := ⟨.noError, t.err.msg⟩ } : CProg).call c lax alloc (.dataWrite d) =
      .ok ({ t with data := d.map some, err := ⟨.noError, t.err.msg⟩ }, 0) := by
    have h3 : memcpyTo v 0 d = .ok (d.map some) := by
      unfold memcpyTo vecCopy
      rw [if_pos (by omega)]
      simp [h2]
    simp only [CProg.call, h3]; rfl
  have k3 : t.run c lax alloc (toC (Sys.init c.clk true) (.commit d)) =
      (({ t with data := d.map some, err := ⟨.noError, t.err.msg⟩ } : CProg).call c lax alloc .addData).map (·.1) := by
    unfold toC
    rw [run_cons k1, run_cons k2, run_one]
  rw [k3]
  constructor
  · intro e he
    simp only [CProg.call, cellBytes_map, bind, Except.bind, cEncoderAddData, he]
    rfl
  · intro f he
    simp only [CProg.call, cellBytes_map, bind, Except.bind, cEncoderAddData, he]
    rfl

/-- One step: if the objects of a C program are those of the closed system, they still are after the calls of the C interface for
that step, which end as the step does. -/
theorem asSys_step {t0 t : CProg} {s : Sys} (h : AsSys t0 t s) (a : Act) (hf : FitsC s a) :
    (∀ s', s.step c a = .ok s' → ∃ t', t.run c lax alloc (toC s a) = .ok t' ∧ AsSys t0 t' s') ∧
    (∀ f, s.step c a = .error f → t.run c lax alloc (toC s a) = .error f) := by
  obtain ⟨he, hd, hp, hv, hh, hm⟩ := h
  cases a with
  | commit d =>
    obtain ⟨h1, h2⟩ := commitC_run (c := c) (lax := lax) (alloc := alloc) hv (d := d) hf
    rw [he] at h1 h2
    simp only [Sys.step]
    cases hx : s.enc.commit c.gf c.dbg d with
    | ok e => exact ⟨fun s' hs => by cases hs; exact ⟨_, h1 e hx, rfl, hd, hp, by simp, hh, hm⟩, fun f hs => by cases hs⟩
    | error f => exact ⟨fun s' hs => (by cases hs), fun f' hs => by cases hs; exact h2 f hx⟩
  | repair =>
    simp only [Sys.step, toC, run_one, CProg.call, cEncoderGenerateRepair, he]
    cases hx : s.enc.generateRepair c.gf c.dbg with
    | ok e => exact ⟨fun s' hs => by cases hs; exact ⟨_, rfl, rfl, hd, hp, hv, hh, hm⟩, fun f hs => by cases hs⟩
    | error f => exact ⟨fun s' hs => (by cases hs), fun f' hs => by cases hs; rfl⟩
  | setRate n =>
    have hn : (BitVec.ofNat 64 n).toNat = n := by rw [BitVec.toNat_ofNat, Nat.mod_eq_of_lt hf]
    simp only [Sys.step, toC, run_one, CProg.call, he, hn]
    cases hx : s.enc.setRate c.dbg n with
    | ok e => exact ⟨fun s' hs => by cases hs; exact ⟨_, rfl, rfl, hd, hp, hv, hh, hm⟩, fun f hs => by cases hs⟩
    | error f => exact ⟨fun s' hs => (by cases hs), fun f' hs => by cases hs; rfl⟩
  | setWindow n =>
    have hn : (BitVec.ofNat 64 n).toNat = n := by rw [BitVec.toNat_ofNat, Nat.mod_eq_of_lt hf]
    simp only [Sys.step, toC, run_one, CProg.call, he, hn]
    cases hx : s.enc.setWindowSize c.dbg n with
    | ok e => exact ⟨fun s' hs => by cases hs; exact ⟨_, rfl, rfl, hd, hp, hv, hh, hm⟩, fun f hs => by cases hs⟩
    | error f => exact ⟨fun s' hs => (by cases hs), fun f' hs => by cases hs; rfl⟩
  | setAdaptive b =>
    simp only [Sys.step, toC, run_one, CProg.call, he]
    exact ⟨fun s' hs => by cases hs; exact ⟨_, rfl, rfl, hd, hp, hv, hh, hm⟩, fun f hs => by cases hs⟩
  | setSystematic b =>
    simp only [Sys.step, toC, run_one, CProg.call, he]
    exact ⟨fun s' hs => by cases hs; exact ⟨_, rfl, rfl, hd, hp, hv, hh, hm⟩, fun f hs => by cases hs⟩
  | deliver i =>
    cases hi : s.enc.out[i]? with
    | none =>
      simp only [Sys.step, toC, hi]
      exact ⟨fun s' hs => by cases hs; exact ⟨t, rfl, he, hd, hp, hv, hh, hm⟩, fun f hs => by cases hs⟩
    | some q =>
      obtain ⟨p, h1, h2, h3⟩ := sendC_run (c := c) (lax := lax) (alloc := alloc) hp (hf q hi) .addToDec
      obtain ⟨q1, q2, q3⟩ := call_addToDec (c := c) (lax := lax) (alloc := alloc)
        (t := { t with pkt := p, err := ⟨.noError, t.err.msg⟩ }) h1
      simp only [Sys.step, toC, hi, ← hd]
      cases hx : t.dec.notify c.gf c.dbg c.clk q.bytes with
      | error f => exact ⟨fun s' hs => (by cases hs), fun f' hs => by cases hs; exact h3.trans (run_one_error (q1 f hx))⟩
      | ok r =>
        obtain ⟨d', r⟩ := r
        refine ⟨fun s' hs => ?_, fun f hs => by cases hs⟩
        cases hs
        cases r with
        | ok n => exact ⟨_, h3.trans (run_one_ok (q2 d' n hx)), he, rfl, .inl rfl, hv, hh, hm⟩
        | error x =>
          obtain ⟨ty, q⟩ := q3 d' x hx
          exact ⟨_, h3.trans (run_one_ok q), he, rfl, h2, hv, hh, hm⟩
  | ack j =>
    cases hi : s.dec.out[j]? with
    | none =>
      simp only [Sys.step, toC, hi]
      exact ⟨fun s' hs => by cases hs; exact ⟨t, rfl, he, hd, hp, hv, hh, hm⟩, fun f hs => by cases hs⟩
    | some q =>
      obtain ⟨p, h1, h2, h3⟩ := sendC_run (c := c) (lax := lax) (alloc := alloc) hp (hf q hi) .addToEnc
      obtain ⟨q1, q2⟩ := call_addToEnc (c := c) (lax := lax) (alloc := alloc)
        (t := { t with pkt := p, err := ⟨.noError, t.err.msg⟩ }) h1
      simp only [Sys.step, toC, hi, ← he]
      cases hx : t.enc.notify c.F c.dbg (writeAck q).flatten with
      | error f => exact ⟨fun s' hs => (by cases hs), fun f' hs => by cases hs; exact h3.trans (run_one_error (q1 f hx))⟩
      | ok r =>
        obtain ⟨d', r⟩ := r
        refine ⟨fun s' hs => ?_, fun f hs => by cases hs⟩
        cases hs
        obtain ⟨ty, n, q⟩ := q2 d' r hx
        exact ⟨_, h3.trans (run_one_ok q), rfl, hd, h2, hv, hh, hm⟩
  | genAck =>
    simp only [Sys.step, toC, run_one, CProg.call, hd]
    exact ⟨fun s' hs => by cases hs; exact ⟨_, rfl, he, rfl, hp, hv, hh, hm⟩, fun f hs => by cases hs⟩
  | maybeAck => exact hf.elim
  | setAckNb n =>
    have hn : (BitVec.ofNat 16 n).toNat = n := by rw [BitVec.toNat_ofNat, Nat.mod_eq_of_lt hf]
    simp only [Sys.step, toC, run_one, CProg.call, hd, hn]
    cases hx : s.dec.setAckNb c.dbg n with
    | ok e => exact ⟨fun s' hs => by cases hs; exact ⟨_, rfl, he, rfl, hp, hv, hh, hm⟩, fun f hs => by cases hs⟩
    | error f => exact ⟨fun s' hs => (by cases hs), fun f' hs => by cases hs; rfl⟩
  | setAckPeriod ms =>
    have hn : (BitVec.ofInt 64 ms).toInt = ms := by
      rw [BitVec.toInt_ofInt]
      have h1 := hf.1
      have h2 := hf.2
      exact Int.bmod_eq_of_le (by norm_num; omega) (by norm_num; omega)
    simp only [Sys.step, toC, run_one, CProg.call, hd, hn]
    exact ⟨fun s' hs => by cases hs; exact ⟨_, rfl, he, rfl, hp, hv, hh, hm⟩, fun f hs => by cases hs⟩

theorem run_append (t : CProg) (l1 l2 : List CCall) :
    t.run c lax alloc (l1 ++ l2) = (t.run c lax alloc l1 >>= fun t => t.run c lax alloc l2) := by
  unfold CProg.run
  rw [List.foldlM_append]

theorem asSys_run {t0 : CProg} (acts : List Act) : ∀ {t : CProg} {s : Sys}, AsSys t0 t s → AllFitC c s acts →
    (∀ s', Sys.run c s acts = .ok s' → ∃ t', t.run c lax alloc (callsC c s acts) = .ok t' ∧ AsSys t0 t' s') ∧
    (∀ f, Sys.run c s acts = .error f → t.run c lax alloc (callsC c s acts) = .error f) := by
  induction acts with
  | nil =>
    intro t s h _
    exact ⟨fun s' hs => by cases hs; exact ⟨t, rfl, h⟩, fun f hs => by cases hs⟩
  | cons a l ih =>
    intro t s h hf
    obtain ⟨h1, h2⟩ := asSys_step (lax := lax) (alloc := alloc) h a hf.1
    unfold Sys.run at ih ⊢
    rw [List.foldlM_cons]
    unfold callsC
    cases hx : s.step c a with
    | error f =>
      refine ⟨fun s' hs => (by cases hs), fun f' hs => ?_⟩
      cases hs
      rw [run_append, h2 _ hx]
      rfl
    | ok s1 =>
      obtain ⟨t1, h3, h4⟩ := h1 s1 hx
      rw [run_append, h3]
      have hf2 := hf.2
      simp only [hx] at hf2
      exact ih h4 hf2

theorem asSys_new {io : Bool} {n m : BitVec 16} {e : CError} :
    ∃ t, CProg.new c io n m e = .ok t ∧ t.heap = [] ∧ t.err = e ∧ AsSys t t (Sys.init c.clk io) := by
  have hn := n.isLt
  have hm := m.isLt
  obtain ⟨p, h1, h2⟩ := VNew.sim (.sized m.toNat) (by simp only [VNew.want]; omega)
  have h1 : Packet.sized m.toNat = .ok p := h1
  have h3 : vecNew n.toNat (none : Cell) = .ok (List.replicate n.toNat none) := by
    unfold vecNew vecMax
    rw [if_neg (by omega)]
  refine ⟨⟨Enc.init, NDec.init c.clk io, List.replicate n.toNat none, p, [], e⟩, ?_, rfl, rfl, rfl, rfl, .inr ⟨_, h2, ?_⟩, ?_, rfl, rfl⟩
  · simp only [CProg.new, h3, cNewPacket, h1]; rfl
  · simp [VNew.vec]; omega
  · simp; omega

/-- **C85** (partial: for steps whose sizes fit in the types of the C interface and that are not `maybe_ack`, which it does not have; see
`C85_false`).  A program that uses the C interface with a single encoder, decoder, data object, packet object and error object, whatever the
sizes they were made with, can do what a program that uses the C++ interface does: after the calls its encoder and its decoder are those of
that program — its callbacks got the same bytes in the same order — and what is undefined or terminates the one does so for the other.
The objects can be used again and again, although the library moves the contents of the data and of packets away.  The error object keeps the
message it had, and no message is allocated. -/
theorem C85_program_partial (io : Bool) (n m : BitVec 16) (e : CError) (acts : List Act) (hf : AllFitC c (Sys.init c.clk io) acts) :
    ∃ t, CProg.new c io n m e = .ok t ∧
      (∀ s, Sys.run c (Sys.init c.clk io) acts = .ok s →
        ∃ t', t.run c lax alloc (callsC c (Sys.init c.clk io) acts) = .ok t' ∧ t'.enc = s.enc ∧ t'.dec = s.dec ∧
          t'.heap = [] ∧ t'.err.msg = e.msg) ∧
      (∀ f, Sys.run c (Sys.init c.clk io) acts = .error f →
        t.run c lax alloc (callsC c (Sys.init c.clk io) acts) = .error f) := by
  obtain ⟨t, h1, h2, h3, h4⟩ := asSys_new (c := c) (io := io) (n := n) (m := m) (e := e)
  obtain ⟨h5, h6⟩ := asSys_run (lax := lax) (alloc := alloc) acts h4 hf
  refine ⟨t, h1, fun s hs => ?_, h6⟩
  obtain ⟨t', h7, h8⟩ := h5 s hs
  exact ⟨t', h7, h8.enc, h8.dec, h8.heap.trans h2, by rw [h8.msg, h3]⟩

/-- **C85 fails** for long data: the repair of a datum of 32760 bytes or more, which a C++ program can give to its decoder, has more bytes
than a `uint16_t` can tell.  `ntc_packet_resize` makes the packet shorter than that, and to copy the bytes into it is undefined behaviour. -/
theorem C85_false (hc : c.Ok) (hw : w ≠ 32) (io : Bool) (n m : BitVec 16) (e : CError) {d : List Byte} (hd : DataOk w d)
    (hl : 32760 ≤ d.length) :
    ∃ t, CProg.new c io n m e = .ok t ∧
      (∃ s, Sys.run c (Sys.init c.clk io) [.commit d, .repair, .deliver 1] = .ok s ∧ s.errs = 0) ∧
      t.run c lax alloc (callsC c (Sys.init c.clk io) [.commit d, .repair, .deliver 1]) = .error (.ub .oobWrite) := by
  obtain ⟨t, h1, -, -, hA⟩ := asSys_new (c := c) (io := io) (n := n) (m := m) (e := e)
  obtain ⟨k₁, k, r, h2, hwin, hrep, hk, h3, h4, h5⟩ := one_repair (gf := c.gf) (dbg := c.dbg) hc.width d hd
  have h6 : (Sys.init c.clk io).step c (.commit d) = .ok { Sys.init c.clk io with enc := k₁, committed := [d] } := by
    have : (Sys.init c.clk io).enc.commit c.gf c.dbg d = .ok k₁ := h2
    simp only [Sys.step, this]; rfl
  have hr1 : Reach c io { Sys.init c.clk io with enc := k₁, committed := [d] } := by
    refine .step .init (a := .commit d) ⟨hd, ?_, ?_⟩ h6
    · show 0 + 1 < 2 ^ 32; decide
    · show 0 + 2 < 2 ^ 32; decide
  generalize hs1 : ({ Sys.init c.clk io with enc := k₁, committed := [d] } : Sys) = s1 at h6 hr1
  have hh : s1.hist = [] := by rw [← hs1]; rfl
  have he1 : s1.enc = k₁ := by rw [← hs1]
  have h7 : s1.step c .repair = .ok { s1 with enc := k } := by
    simp only [Sys.step, he1, hk]; rfl
  obtain ⟨h8, -⟩ := asSys_step (lax := lax) (alloc := alloc) hA (.commit d) hd.2.1
  obtain ⟨t1, h9, hA1⟩ := h8 s1 h6
  obtain ⟨h10, -⟩ := asSys_step (lax := lax) (alloc := alloc) hA1 .repair trivial
  obtain ⟨t2, h11, hA2⟩ := h10 _ h7
  have hout : ({ s1 with enc := k } : Sys).enc.out[1]? = some (.repair r) := by
    show k.out[1]? = _
    rw [h3]; rfl
  have hr2 : Reach c io { s1 with enc := k } := by
    refine .step hr1 (a := .repair) ⟨?_, ?_⟩ h7
    · rw [he1, hwin]; decide
    · rw [he1, hrep]; decide
  obtain ⟨s3, h12, h13⟩ := C05_no_fault_partial hc hr2 (.deliver 1) (by
    simp only [Allowed, hout]
    refine ⟨.inl (by rw [hh]; simp), ?_, fun x _ h => absurd h hw⟩
    rw [h4]; decide)
  refine ⟨t, h1, ⟨s3, ?_, h13⟩, ?_⟩
  · unfold Sys.run
    rw [List.foldlM_cons, h6, ok_bind', List.foldlM_cons, h7, ok_bind', List.foldlM_cons, h12]
    rfl
  · simp only [callsC, h6, h7]
    rw [run_append, h9, ok_bind', run_append, h11, ok_bind', run_append]
    simp only [toC, hout]
    unfold sendC
    obtain ⟨p', v, g1, g2, g3⟩ := pktC_resize (lax := lax) (alloc := alloc) hA2.pkt
      (BitVec.ofNat 16 (EPkt.repair r).bytes.length) t2.heap t2.err
    rw [run_cons (call_pktResize g1)]
    have g4 : memcpyTo p'.buf Packet.beginOff (EPkt.repair r).bytes = .error (.ub .oobWrite) := by
      obtain ⟨pre, g5, g6, -⟩ := g2
      unfold memcpyTo vecCopy
      rw [if_neg]
      rw [BitVec.toNat_ofNat] at g3
      rw [g6, List.length_append, g5, g3]
      have : Packet.beginOff = 9 := rfl
      omega
    rw [run_cons_error]
    · rfl
    · simp only [CProg.call, g4]; rfl

/-- **C85 fails** for the size of a packet that the decoder took: `ntc_packet_get_size` says 65527 whatever its size was, until the packet is
resized. -/
theorem C85_false_size {t : CProg} {l : List Byte} {d : NDec} {n : Nat} (h1 : t.pkt.bytes = .ok l)
    (h2 : t.dec.notify c.gf c.dbg c.clk l = .ok (d, .ok n)) :
    ∃ t', t.call c lax alloc .addToDec = .ok (t', n) ∧ t'.call c lax alloc .pktSize = .ok (t', 65527) := by
  have h : (cPacketGetSize Packet.movedFrom).toNat = 65527 := by decide +kernel
  refine ⟨_, (call_addToDec h1).2.1 d n h2, ?_⟩
  rw [CProg.call, h]
  rfl

/-! ## A concrete program -/

/-- Two data, the second one is lost, a repair of both, and an ack. -/
def cProgActs : List Act :=
  [.setWindow 4, .setAckNb 9, .commit [1, 2, 3], .deliver 0, .commit [4, 5], .repair, .deliver 2, .genAck, .ack 0]

example : AllFitC (cfg8 true) (Sys.init (cfg8 true).clk true) cProgActs := by decide +kernel

/-- The data that the callbacks of the C program got. -/
def cProgData (n m : BitVec 16) : Option (List (List Byte)) :=
  match CProg.new (cfg8 true) true n m ⟨.noError, none⟩ with
  | .ok t => match t.run (cfg8 true) false true (callsC (cfg8 true) (Sys.init (cfg8 true).clk true) cProgActs) with
    | .ok t => some t.dec.data
    | .error _ => none
  | .error _ => none

example : cProgData 0 9 = some [[1, 2, 3], [4, 5]] := by decide +kernel

/-- A datum that is too long for the C interface. -/
example : DataOk 8 (List.replicate 32760 (7 : Byte)) ∧ 32760 ≤ (List.replicate 32760 (7 : Byte)).length := by
  unfold DataOk
  rw [List.length_replicate]
  decide

end Netcode
