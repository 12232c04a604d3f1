import Verif.Spec.Tunnel
import Verif.Proofs.Both
import Verif.Props.Late
import Verif.Props.Trail
import Verif.Proofs.Handlers

/-!
# The tunnel: proofs
-/

namespace Netcode

/-! ## Sizes -/

theorem writeIds_length (ids : List Nat) : (writeIds ids).flatten.length ≤ 3 * ids.length + 3 := by
  cases ids with
  | nil => simp [writeIds, beBytes_length]
  | cons a t =>
    have h1 : (rle (adjDiff a t)).length ≤ t.length := by
      cases t with
      | nil => simp [adjDiff, rle]
      | cons b u =>
        have := rleGo_length (adjDiff b u) ((b + 2 ^ 32 - a % 2 ^ 32) % 2 ^ 32) 1
        rw [adjDiff_length] at this
        simpa [adjDiff, rle] using this
    have h2 : ∀ l : List (Nat × Nat), (l.flatMap (fun p => [beBytes 1 p.1, beBytes 2 p.2])).flatten.length = 3 * l.length := by
      intro l
      induction l with
      | nil => rfl
      | cons p u ih =>
        simp only [List.flatMap_cons, List.flatten_append, List.length_append, ih, List.flatten_cons, List.flatten_nil, beBytes_length,
          List.length_nil, List.length_cons]
        omega
    simp only [writeIds, List.flatten_append, List.length_append, h2, List.flatten_cons, List.flatten_nil, beBytes_length, List.length_nil,
      List.length_cons]
    omega

theorem writeRepair_length (r : ERepair) : (writeRepair r).flatten.length = 11 + 2 * r.sym.length + (writeIds r.ids).flatten.length := by
  simp only [writeRepair, List.flatten_append, List.length_append, List.flatten_cons, List.flatten_nil, beBytes_length, List.length_nil]
  omega

theorem writeSource_length (s : ESource) : (writeSource s).flatten.length = 7 + s.sym.length := by
  simp only [writeSource, List.length_append, List.flatten_cons, List.flatten_nil, beBytes_length, List.length_nil]
  omega

/-! ## One direction -/

/-- A direction that looks like a state of the closed system. -/
structure DirInv (c : Cfg 8) (late : Bool) (S : Sys) : Prop where
  view : ∃ s R, Reaches c late true s ∧ Longer s.dec.det.repairs R ∧ S = { s with dec := s.dec.withR R }
  ws : S.enc.windowSize = 32
  win : S.enc.sources.length ≤ 32
  small : ∀ d ∈ S.committed, d.length ≤ 32697
  pkts : ∀ p ∈ S.enc.out, p.bytes.length ≤ bufferSize
  acks : ∀ a ∈ S.dec.out, (writeAck a).flatten.length ≤ bufferSize

theorem reach_errs {w : Nat} {c : Cfg w} {io : Bool} {s : Sys} (hc : c.Ok) (h : ReachLate c io s) : s.errs = 0 := by
  have := fact_of_valid hc.width
  exact (ginv_of_late hc h _ (comData_agree s)).errs

/-- A step of a direction. -/
theorem dir_step {c : Cfg 8} {late : Bool} (hc : c.Ok) {S : Sys} (h : DirInv c late S) (a : Act) (ha : Permits c late S a) (j : List Byte) :
    ∃ S', Sys.stepPadded c S a j = .ok S' ∧ S'.errs = 0 ∧ S.errs = 0 ∧
      ∃ s R, Reaches c late true s ∧ Longer s.dec.det.repairs R ∧ S' = { s with dec := s.dec.withR R } := by
  obtain ⟨s, R, hr, hl, rfl⟩ := h.view
  obtain ⟨s', h1, h2⟩ := C05_no_fault_late_partial hc hr.toLate a ((permits_withR hl.keyIds).1 ha).toLate
  obtain ⟨R', h3, h4⟩ := step_tail j hl h1 (by rw [h2, reach_errs hc hr.toLate])
  have he := reach_errs hc hr.toLate
  exact ⟨_, h3, h2, he, s', R', hr.step ((permits_withR hl.keyIds).1 ha) h1, h4, rfl⟩

/-- The sources in the window are data that were committed. -/
theorem reach_sources {c : Cfg 8} (hc : c.Ok) {s : Sys} (h : ReachLate c true s) :
    Sorted (s.enc.sources.map (·.id)) ∧ ∀ x ∈ s.enc.sources, DataOk 8 x.sym ∧ x.sym ∈ s.committed := by
  have := fact_of_valid hc.width
  obtain ⟨u, _, _, _, _, _, _, hI⟩ := (ginv_of_late hc h _ (comData_agree s)).view
  have hsrcs : s.enc.sources = _ := hI.enc.srcs
  refine ⟨hI.enc.srcSorted, fun x hx => ?_⟩
  rw [hsrcs] at hx
  obtain ⟨y, hy, rfl⟩ := List.mem_map.1 hx
  have hlt : y < s.committed.length := hI.enc.srcLt y hy
  refine ⟨hI.enc.dataOk y hlt, ?_⟩
  show comData s y ∈ _
  unfold comData
  rw [List.getD_eq_getElem?_getD, List.getElem?_eq_getElem hlt]
  exact List.getElem_mem hlt

theorem repair_size {gf : GF 8} {dbg : Bool} {id : Nat} {T : List ESource} {r : ERepair} (h : encodeRepair gf dbg id T = .ok r)
    (hne : T ≠ []) (hd : ∀ x ∈ T, DataOk 8 x.sym) (hs : Sorted (T.map (·.id))) :
    r.ids.length = T.length ∧ (∀ x ∈ T, x.sym.length ≤ r.sym.length) ∧ ∃ x ∈ T, r.sym.length = x.sym.length := by
  have : Fact (0 < 8) := ⟨by decide⟩
  obtain ⟨r', h1, h2⟩ := encodeRepair_ok gf (by unfold ValidW; simp) dbg id T hne hd hs
  rw [h] at h1
  cases h1
  have := isRepairOf_of_encOk gf (by unfold ValidW; simp) h2 hd
  refine ⟨by rw [this.ids, List.length_map], this.longest.1, ?_⟩
  obtain ⟨x, hx, he⟩ := this.longest.2
  exact ⟨x, hx, he.symm⟩

/-- The packets of a commit fit in the buffer. -/
theorem dir_commit {c : Cfg 8} {late : Bool} (hc : c.Ok) {S S' : Sys} (h : DirInv c late S) {d : List Byte} (hd : d.length ≤ 32697)
    (hr : ∃ s R, Reaches c late true s ∧ Longer s.dec.det.repairs R ∧ S' = { s with dec := s.dec.withR R })
    (hst : S.step c (.commit d) = .ok S') : DirInv c late S' := by
  simp only [Sys.step] at hst
  obtain ⟨e, h1, h2⟩ := bind_ok_iff.1 hst
  cases h2
  have hsrc := (commit_sources h1).1
  have hlen : e.sources.length ≤ 32 := by
    rw [hsrc, List.length_append, List.length_singleton]
    have := h.win
    have hw := h.ws
    unfold Enc.room
    split <;> (simp_all; try omega)
  have hS : ∀ x ∈ e.sources, DataOk 8 x.sym ∧ x.sym.length ≤ 32697 := by
    obtain ⟨s, R, k1, k2, k3⟩ := hr
    intro x hx
    have e1 : e = s.enc := congrArg Sys.enc k3
    have e2 : S.committed ++ [d] = s.committed := congrArg Sys.committed k3
    obtain ⟨q1, q2⟩ := (reach_sources hc k1.toLate).2 x (e1 ▸ hx)
    refine ⟨q1, ?_⟩
    rw [← e2] at q2
    rcases List.mem_append.1 q2 with q | q
    · exact h.small _ q
    · rw [List.mem_singleton.1 q]; exact hd
  have hSort : Sorted (e.sources.map (·.id)) := by
    obtain ⟨s, R, k1, k2, k3⟩ := hr
    have e1 : e = s.enc := congrArg Sys.enc k3
    rw [e1]
    exact (reach_sources hc k1.toLate).1
  have hrep : ∀ id r, encodeRepair c.gf c.dbg id e.sources = .ok r → (EPkt.repair r).bytes.length ≤ bufferSize := by
    intro id r he
    obtain ⟨q1, -, x, hx, q2⟩ := repair_size he (by rw [hsrc]; simp) (fun x hx => (hS x hx).1) hSort
    have q3 := (hS x hx).2
    have q4 := writeIds_length r.ids
    show (writeRepair r).flatten.length ≤ _
    rw [writeRepair_length]
    unfold bufferSize
    omega
  refine ⟨hr, ?_, hlen, ?_, ?_, h.acks⟩
  · have hw := h.ws
    obtain ⟨e1, e2, rfl, h2, -, h4⟩ := commit_inv h1
    rcases h2 with ⟨-, rfl⟩ | ⟨-, r1, -, rfl⟩ <;> rcases h4 with ⟨-, rfl⟩ | ⟨-, r2, -, rfl⟩ <;> exact hw
  · intro x hx
    rcases List.mem_append.1 hx with q | q
    · exact h.small _ q
    · rw [List.mem_singleton.1 q]; exact hd
  · have hp := h.pkts
    have hsl : (EPkt.source ⟨S.enc.curSrc, d⟩).bytes.length ≤ bufferSize := by
      show (writeSource _).flatten.length ≤ _
      rw [writeSource_length]
      unfold bufferSize
      simp only
      omega
    obtain ⟨e1, e2, rfl, h2, -, h4⟩ := commit_inv h1
    rw [hsrc] at hrep
    rcases h2 with ⟨-, rfl⟩ | ⟨-, r1, g1, rfl⟩ <;> rcases h4 with ⟨-, rfl⟩ | ⟨-, r2, g2, rfl⟩ <;> intro p hpp <;>
      simp only [Enc.sentSource, Enc.sentRepair, List.mem_append, List.mem_singleton] at hpp
    · rcases hpp with q | rfl
      · exact hp _ q
      · exact hsl
    · rcases hpp with (q | rfl) | rfl
      · exact hp _ q
      · exact hsl
      · exact hrep _ _ g2
    · rcases hpp with q | rfl
      · exact hp _ q
      · exact hrep _ _ g1
    · rcases hpp with (q | rfl) | rfl
      · exact hp _ q
      · exact hrep _ _ g1
      · exact hrep _ _ g2

/-! ## Arrivals -/

theorem received_eq {p : List Byte} (h : p.length ≤ bufferSize) (junk : List Byte) :
    received p junk = p ++ junk.take (bufferSize - p.length) := by
  unfold received
  rw [List.take_of_length_le h]

theorem bytes_ne (p : EPkt) : p.bytes ≠ [] := by
  cases p <;> simp [EPkt.bytes, EPkt.chunks, writeSource, writeRepair, beBytes]

theorem bytes_type (p : EPkt) : getPacketType p.bytes = .ok .source ∨ getPacketType p.bytes = .ok .repair := by
  cases p with
  | source s => exact .inl (getPacketType_source s)
  | repair r => exact .inr (getPacketType_repair r)

theorem writeAck_ne (a : Ack) : (writeAck a).flatten ≠ [] := by simp [writeAck, beBytes]

/-- The arrival of a packet is a step of the direction. -/
theorem arrive_packet {c : Cfg 8} {s : Side} {S S' : Sys} {i : Nat} {p : EPkt} {junk : List Byte} (h1 : S.dec = s.dec) (h2 : S.hist = s.hist)
    (hp : S.enc.out[i]? = some p) (hl : p.bytes.length ≤ bufferSize)
    (hst : Sys.stepPadded c S (.deliver i) (junk.take (bufferSize - p.bytes.length)) = .ok S') (he : S.errs = 0) (he' : S'.errs = 0) :
    s.arrive c p.bytes (some i) junk = .ok { s with seen := true, dec := S'.dec, hist := S'.hist } ∧
      S' = { S with dec := S'.dec, hist := S'.hist } := by
  simp only [Sys.stepPadded, hp] at hst
  obtain ⟨⟨d, r⟩, k1, k2⟩ := bind_ok_iff.1 hst
  cases k2
  simp only at he'
  cases r with
  | error x => simp only [errCount] at he'; omega
  | ok n =>
    refine ⟨?_, by simp [errCount]⟩
    unfold Side.arrive
    rw [if_pos (List.length_pos_iff.2 (bytes_ne p)), received_eq hl]
    rw [h1] at k1
    have hd : dispatch c.gf c.F c.dbg c.clk s.enc s.dec (p.bytes ++ junk.take (bufferSize - p.bytes.length)) = .ok ((s.enc, d), .ok n) := by
      unfold dispatch
      rw [getPacketType_append (bytes_ne p)]
      rcases bytes_type p with ht | ht <;> rw [ht] <;> simp only <;> rw [k1] <;> rfl
    simp only [hd, h2, Option.toList]

/-- The arrival of an ack is a step of the other direction. -/
theorem arrive_ack {c : Cfg 8} {s : Side} {S S' : Sys} {j : Nat} {a : Ack} {junk : List Byte} (h1 : S.enc = s.enc)
    (hp : S.dec.out[j]? = some a) (hl : (writeAck a).flatten.length ≤ bufferSize)
    (hst : Sys.stepPadded c S (.ack j) (junk.take (bufferSize - (writeAck a).flatten.length)) = .ok S') (he : S.errs = 0)
    (he' : S'.errs = 0) :
    s.arrive c (writeAck a).flatten none junk = .ok { s with seen := true, enc := S'.enc } ∧ S' = { S with enc := S'.enc } := by
  simp only [Sys.stepPadded, hp] at hst
  obtain ⟨⟨e, r⟩, k1, k2⟩ := bind_ok_iff.1 hst
  cases k2
  simp only at he'
  cases r with
  | error x => simp only [errCount] at he'; omega
  | ok n =>
    refine ⟨?_, by simp [errCount]⟩
    unfold Side.arrive
    rw [if_pos (List.length_pos_iff.2 (writeAck_ne a)), received_eq hl]
    rw [h1] at k1
    have hd : dispatch c.gf c.F c.dbg c.clk s.enc s.dec ((writeAck a).flatten ++ junk.take (bufferSize - (writeAck a).flatten.length)) =
        .ok ((e, s.dec), .ok n) := by
      unfold dispatch
      rw [getPacketType_append (writeAck_ne a), getPacketType_ack]
      simp only
      rw [k1]
      rfl
    simp only [hd, Option.toList, List.append_nil]

/-- The effect of an ack on the window and the packets of the encoder. -/
theorem notify_shrinks {F : F64} {dbg : Bool} {e e' : Enc} {p : List Byte} {r : Except CppErr Nat} (h : e.notify F dbg p = .ok (e', r)) :
    e'.windowSize = e.windowSize ∧ e'.sources.length ≤ e.sources.length ∧ e'.out = e.out := by
  unfold Enc.notify at h
  obtain ⟨_, _, h⟩ := bind_ok_iff.1 h
  cases ht : getPacketType p with
  | error x => rw [ht] at h; cases x <;> cases h; exact ⟨rfl, Nat.le_refl _, rfl⟩
  | ok t =>
    rw [ht] at h
    cases t with
    | ack =>
      simp only at h
      cases hr : readAck p with
      | error x => rw [hr] at h; cases x <;> cases h; exact ⟨rfl, Nat.le_refl _, rfl⟩
      | ok x => rw [hr] at h; cases h; exact ⟨rfl, (eraseIds_sublist _ _).length_le, rfl⟩
    | _ => cases h; exact ⟨rfl, Nat.le_refl _, rfl⟩

theorem notify_keeps_out {w : Nat} {gf : GF w} {dbg : Bool} {clk : Clock} {d d' : NDec} {p : List Byte} {r : Except CppErr Nat}
    (h : d.notify gf dbg clk p = .ok (d', r)) : d.out <+: d'.out := by
  unfold NDec.notify at h
  obtain ⟨_, _, h⟩ := bind_ok_iff.1 h
  cases ht : getPacketType p with
  | error x => rw [ht] at h; cases x <;> cases h; exact List.prefix_refl _
  | ok ty =>
    rw [ht] at h
    cases ty with
    | ack => cases h; exact List.prefix_refl _
    | repair =>
      simp only at h
      cases hr : readRepair p with
      | error x => rw [hr] at h; cases x <;> cases h; exact List.prefix_refl _
      | ok y =>
        rw [hr] at h
        obtain ⟨det', _, h⟩ := bind_ok_iff.1 h
        cases h
        exact foldHandle_out clk _ { d with nbRepairs := d.nbRepairs + 1, ackPackets := (d.ackPackets + 1) % 2 ^ 16, det := det' }
    | source =>
      simp only at h
      cases hr : readSource p with
      | error x => rw [hr] at h; cases x <;> cases h; exact List.prefix_refl _
      | ok y =>
        rw [hr] at h
        obtain ⟨det', _, h⟩ := bind_ok_iff.1 h
        cases h
        exact foldHandle_out clk _ { d with nbSources := d.nbSources + 1, ackPackets := (d.ackPackets + 1) % 2 ^ 16, det := det' }

/-! ## Both directions -/

theorem dir_set_same (t : Tun) (x : Bool) (s : Side) : (t.set x s).dir x =
    { t.dir x with enc := s.enc, committed := s.sent } := by cases x <;> rfl

theorem dir_set_other (t : Tun) (x : Bool) (s : Side) : (t.set x s).dir (!x) =
    { t.dir (!x) with dec := s.dec, hist := s.hist } := by cases x <;> rfl

theorem dir_dec (t : Tun) (x : Bool) : (t.dir !x).dec = (t.side x).dec ∧ (t.dir !x).hist = (t.side x).hist ∧
    (t.dir !x).enc = (t.side !x).enc := by cases x <;> exact ⟨rfl, rfl, rfl⟩

theorem both {P : Bool → Prop} (x : Bool) (h1 : P x) (h2 : P !x) (y : Bool) : P y := by
  cases x <;> cases y <;> assumption

/-- Data handed over fit in a datagram. -/
theorem DirInv.data {c : Cfg 8} {late : Bool} (hc : c.Ok) {S : Sys} (h : DirInv c late S) : ∀ d ∈ S.dec.data, d.length ≤ 32697 := by
  obtain ⟨s, R, h1, -, h3⟩ := h.view
  intro d hd
  have e1 : S.dec.data = s.dec.data := by rw [h3]; rfl
  have e2 : S.committed = s.committed := by rw [h3]
  exact h.small d (e2 ▸ C01_integrity_late_partial hc h1.toLate d (e1 ▸ hd))

theorem fits_of {c : Cfg 8} {late : Bool} (hc : c.Ok) {s s' : Side} {S1 S2 : Sys} (h1 : DirInv c late S1) (h2 : DirInv c late S2) (e1 : S1.enc = s'.enc)
    (e2 : S2.dec = s'.dec) : s.fits s' = true := by
  unfold Side.fits
  simp only [Bool.and_eq_true, List.all_eq_true, decide_eq_true_eq]
  refine ⟨⟨fun p hp => ?_, fun a ha => ?_⟩, fun d hd => ?_⟩
  · exact Nat.le_trans (h1.pkts p (e1 ▸ List.mem_of_mem_drop hp)) (by decide)
  · exact Nat.le_trans (h2.acks a (e2 ▸ List.mem_of_mem_drop ha)) (by decide)
  · exact Nat.le_trans (h2.data hc d (e2 ▸ List.mem_of_mem_drop hd)) (by decide)

theorem mem_out {w : Nat} {d d' : NDec} (h : d.out <+: d'.out) {k : Ack} (hk : k ∈ d'.out) : k ∈ d.out ∨ k ∈ d'.out.drop d.out.length := by
  obtain ⟨t, ht⟩ := h
  rw [← ht] at hk ⊢
  rcases List.mem_append.1 hk with q | q
  · exact .inl q
  · exact .inr (by simpa using q)

/-- One allowed step of the tunnel. -/
theorem tun_step {c : Cfg 8} {late : Bool} (hc : c.Ok) {t : Tun} (h : ∀ x, DirInv c late (t.dir x)) (a : TunAct) (ha : TAllowed c late t a) :
    ∃ t', t.step c a = .ok t' ∧ ∀ x, DirInv c late (t'.dir x) := by
  -- it is enough to find the new side
  suffices ∃ s, t.act c a = .ok s ∧ DirInv c late { t.dir a.at with enc := s.enc, committed := s.sent } ∧
      DirInv c late { t.dir (!a.at) with dec := s.dec, hist := s.hist } by
    obtain ⟨s, h1, h2, h3⟩ := this
    refine ⟨t.set a.at s, ?_, ?_⟩
    · unfold Tun.step
      rw [h1]
      simp only [bind, Except.bind]
      rw [fits_of hc h2 h3 rfl rfl]
      rfl
    · refine both (P := fun y => DirInv c late ((t.set a.at s).dir y)) a.at ?_ ?_
      · rw [dir_set_same]; exact h2
      · rw [dir_set_other]; exact h3
  cases a with
  | app x d =>
    obtain ⟨h1, h2, h3⟩ := ha
    show ∃ s, (t.side x).app c d = .ok s ∧ _
    have ho : DirInv c late (t.dir !x) := h !x
    by_cases hd : d.length > 0
    · have htk : d.take bufferSize = d := List.take_of_length_le (by unfold bufferSize; omega)
      have hal : Permits c late (t.dir x) (.commit d) := permits_other ⟨⟨hd, by omega, by omega⟩, h2, h3⟩
      obtain ⟨S', k1, -, -, k4⟩ := dir_step hc (h x) _ hal []
      have k1' : (t.dir x).step c (.commit d) = .ok S' := k1
      have hS := dir_commit hc (h x) h1 k4 k1'
      simp only [Sys.step] at k1'
      obtain ⟨e, q1, q2⟩ := bind_ok_iff.1 k1'
      cases q2
      refine ⟨{ t.side x with enc := e, sent := (t.side x).sent ++ [d] }, ?_, hS, ?_⟩
      · unfold Side.app
        rw [if_pos hd, htk, show (t.side x).enc.commit c.gf c.dbg d = .ok e from q1]
      · have := dir_dec t x
        rw [← this.1, ← this.2.1]
        exact ho
    · refine ⟨t.side x, by unfold Side.app; rw [if_neg hd], h x, ?_⟩
      have := dir_dec t x
      rw [← this.1, ← this.2.1]
      exact ho
  | timer x =>
    refine ⟨(t.side x).timer, rfl, ?_, ?_⟩
    · have : (t.side x).timer.enc = (t.side x).enc ∧ (t.side x).timer.sent = (t.side x).sent := by
        unfold Side.timer; split <;> exact ⟨rfl, rfl⟩
      show DirInv c late { t.dir x with enc := _, committed := _ }
      rw [this.1, this.2]
      exact h x
    · have ho := h !x
      obtain ⟨e1, e2, e3⟩ := dir_dec t x
      have hfit := ha _ rfl
      show DirInv c late { t.dir (!x) with dec := _, hist := _ }
      unfold Side.timer at hfit ⊢
      split
      · rename_i hs
        rw [if_pos hs] at hfit
        obtain ⟨S', k1, -, -, k4⟩ := dir_step hc ho .genAck (permits_other trivial) []
        cases k1
        simp only
        rw [← e1] at hfit ⊢
        rw [← e2]
        refine ⟨k4, ho.ws, ho.win, ho.small, ho.pkts, ?_⟩
        intro k hk
        have hpre : (t.dir !x).dec.out <+: (t.dir !x).dec.generateAck.out := List.prefix_append _ _
        rcases mem_out (w := 8) hpre hk with q | q
        · exact ho.acks k q
        · refine hfit k ?_
          show k ∈ List.drop (t.side x).dec.out.length _
          rw [← e1]
          exact q
      · rw [← e1, ← e2]; exact ho
  | packet x i junk =>
    obtain ⟨hal, hfit⟩ := ha
    have ho := h !x
    obtain ⟨e1, e2, e3⟩ := dir_dec t x
    have hx : DirInv c late { t.dir x with enc := (t.side x).enc, committed := (t.side x).sent } := h x
    cases hp : (t.side !x).enc.out[i]? with
    | none =>
      refine ⟨t.side x, by simp only [Tun.act, hp], hx, ?_⟩
      rw [← e1, ← e2]; exact ho
    | some p =>
      have hp' : (t.dir !x).enc.out[i]? = some p := by rw [e3]; exact hp
      have hlen := ho.pkts p (List.mem_of_getElem? hp')
      obtain ⟨S', k1, k2, k3, k4⟩ := dir_step hc ho _ hal (junk.take (bufferSize - p.bytes.length))
      obtain ⟨q1, q2⟩ := arrive_packet e1 e2 hp' hlen k1 k3 k2
      have hact : t.act c (.packet x i junk) = .ok { t.side x with seen := true, dec := S'.dec, hist := S'.hist } := by
        simp only [Tun.act, hp]
        exact q1
      refine ⟨_, hact, hx, ?_⟩
      show DirInv c late { t.dir (!x) with dec := S'.dec, hist := S'.hist }
      rw [← q2]
      have en : S'.enc = (t.dir !x).enc := by rw [q2]
      have ec : S'.committed = (t.dir !x).committed := by rw [q2]
      refine ⟨k4, en ▸ ho.ws, en ▸ ho.win, ec ▸ ho.small, en ▸ ho.pkts, ?_⟩
      intro k hk
      have hpre : (t.dir !x).dec.out <+: S'.dec.out := by
        simp only [Sys.stepPadded, hp'] at k1
        obtain ⟨⟨d, r⟩, g1, g2⟩ := bind_ok_iff.1 k1
        cases g2
        exact notify_keeps_out g1
      rcases mem_out (w := 8) hpre hk with q | q
      · exact ho.acks k q
      · refine hfit _ hact k ?_
        show k ∈ List.drop (t.side x).dec.out.length _
        rw [← e1]
        exact q
  | ack x j junk =>
    have hal : Permits c late (t.dir x) (.ack j) := ha
    have hx := h x
    obtain ⟨e1, e2, e3⟩ := dir_dec t x
    have ho : DirInv c late { t.dir (!x) with dec := (t.side x).dec, hist := (t.side x).hist } := by rw [← e1, ← e2]; exact h !x
    cases hp : (t.side !x).dec.out[j]? with
    | none => exact ⟨t.side x, by simp only [Tun.act, hp], hx, ho⟩
    | some p =>
      have hp' : (t.dir x).dec.out[j]? = some p := hp
      have hlen := hx.acks p (List.mem_of_getElem? hp')
      obtain ⟨S', k1, k2, k3, k4⟩ := dir_step hc hx _ hal (junk.take (bufferSize - (writeAck p).flatten.length))
      obtain ⟨q1, q2⟩ := arrive_ack (s := t.side x) rfl hp' hlen k1 k3 k2
      refine ⟨{ t.side x with seen := true, enc := S'.enc }, by simp only [Tun.act, hp]; exact q1, ?_, ho⟩
      show DirInv c late { t.dir x with enc := S'.enc, committed := (t.dir x).committed }
      have : ({ t.dir x with enc := S'.enc, committed := (t.dir x).committed } : Sys) = S' := q2.symm
      rw [this]
      simp only [Sys.stepPadded, hp'] at k1
      obtain ⟨⟨e, r⟩, g1, g2⟩ := bind_ok_iff.1 k1
      cases g2
      obtain ⟨n1, n2, n3⟩ := notify_shrinks g1
      exact ⟨k4, n1.trans hx.ws, Nat.le_trans n2 hx.win, hx.small, by rw [n3]; exact hx.pkts, hx.acks⟩

theorem tun_init {c : Cfg 8} {late : Bool} (x : Bool) : DirInv c late ((Tun.init c.clk).dir x) := by
  have hr : Reaches c late true { enc := (Side.init c.clk).enc, dec := (Side.init c.clk).dec, committed := [], hist := [], errs := 0 } := by
    have h1 : (Sys.init c.clk true).step c (.setWindow 32) = .ok { Sys.init c.clk true with enc := { Enc.init with windowSize := 32 } } := by
      simp only [Sys.step, Enc.setWindowSize]
      rw [cassert_true _ (by decide)]
      rfl
    have r1 := Reaches.step (late := late) (a := .setWindow 32) Reaches.init (permits_other (by show 0 < 32; decide)) h1
    have r2 := Reaches.step (a := .setAdaptive true) r1 (permits_other trivial) rfl
    exact Reaches.step (a := .setAckPeriod 0) r2 (permits_other trivial) rfl
  have he : (Tun.init c.clk).dir x =
      { enc := (Side.init c.clk).enc, dec := (Side.init c.clk).dec, committed := [], hist := [], errs := 0 } := by cases x <;> rfl
  rw [he]
  exact ⟨⟨_, [], hr, Longer.nil, rfl⟩, rfl, Nat.zero_le _, by simp, by simp [Side.init, Enc.init], by simp [Side.init, NDec.init, NDec.setAckPeriod]⟩

theorem tun_reach {c : Cfg 8} {late : Bool} (hc : c.Ok) {t : Tun} (h : TReach c late t) : ∀ x, DirInv c late (t.dir x) := by
  induction h with
  | init => exact tun_init
  | step _ ha hst ih =>
    obtain ⟨t', h1, h2⟩ := tun_step hc ih _ ha
    rw [hst] at h1
    cases h1
    exact h2

theorem dir_curSrc {c : Cfg 8} {late : Bool} (hc : c.Ok) {S : Sys} (h : DirInv c late S) : S.enc.curSrc = S.committed.length := by
  have := fact_of_valid hc.width
  obtain ⟨s, R, hr, -, rfl⟩ := h.view
  obtain ⟨u, _, _, _, _, _, _, hI⟩ := (ginv_of_late hc hr.toLate _ (comData_agree s)).view
  exact hI.cur

/-- With fewer than 2^16 committed data only the order of the arrivals matters. -/
theorem permits_of_order {c : Cfg 8} {late io : Bool} {s : Sys} (hc : c.Ok) (h : Reaches c late io s)
    (hn : s.committed.length < 2 ^ 16) (i : Nat) (hsrc : ∀ sr, s.enc.out[i]? = some (.source sr) → s.Timely late c.gf i)
    (hrep : ∀ r, s.enc.out[i]? = some (.repair r) → s.MayArrive i r) : Permits c late s (.deliver i) := by
  have := fact_of_valid hc.width
  obtain ⟨u, ems, A, ρ, L, W, K, hI⟩ := (ginv_of_late hc h.toLate _ (comData_agree s)).view
  have hrp : ∀ r, s.enc.out[i]? = some (.repair r) → s.MayArrive i r ∧ WireIds r.ids ∧
      ∀ x ∈ r.ids, SizeFits c.gf (coefficient 8 r.id x) (BitVec.ofNat 16 (s.committed.getD x []).length) := by
    intro r hi
    refine ⟨hrep r hi, ?_, fun x _ h32 => absurd h32 (by decide)⟩
    obtain ⟨em, hem, hren⟩ := hI.enc.ems_get (show (s.hyb u).enc.out[i]? = some (.repair r) from hi)
    cases em with
    | src y => cases hren
    | rep rid Wi =>
      obtain ⟨r2, e1, e2, _, hso⟩ := hren
      injection e1 with e1
      have hids : r.ids = Wi := by rw [e1, e2.ids, List.map_map]; exact List.map_id Wi
      rw [hids]
      exact wireIds_small hso (fun x hx => hI.enc.emLt _ (List.mem_of_getElem? hem) x hx) hn
  cases hi : s.enc.out[i]? with
  | none => cases late <;> simp [Permits, AllowedLate, Allowed, hi]
  | some p =>
    cases p with
    | source sr =>
      have := hsrc sr hi
      cases late <;> (simp only [Permits, AllowedLate, Allowed, hi]; exact this)
    | repair r =>
      have := hrp r hi
      cases late <;> (simp only [Permits, AllowedLate, Allowed, hi]; exact this)

theorem permits_ack {c : Cfg 8} {late io : Bool} {s : Sys} (hc : c.Ok) (h : Reaches c late io s)
    (hn : s.committed.length < 2 ^ 16) (j : Nat) : Permits c late s (.ack j) := by
  have := fact_of_valid hc.width
  obtain ⟨u, ems, A, ρ, L, W, K, hI⟩ := (ginv_of_late hc h.toLate _ (comData_agree s)).view
  refine permits_other ?_
  intro a ha
  have ho := hI.acks.out a (List.mem_of_getElem? ha)
  exact wireIds_small ho.1 (fun x hx => hI.knownLt x (ho.2.1 x hx)) hn

/-! ## Evaluation -/

instance (c : Cfg 8) (late : Bool) (t : Tun) (x : Bool) (d : List Byte) : Decidable (TAllowed c late t (.app x d)) :=
  inferInstanceAs (Decidable (_ ∧ _ ∧ _))

/-- Runs of the applications alone. -/
def appRun (c : Cfg 8) : Tun → List (Bool × List Byte) → Option Tun
  | t, [] => some t
  | t, (x, d) :: l =>
    if TAllowed c true t (.app x d) then
      match t.step c (.app x d) with
      | .error _ => none
      | .ok t' => appRun c t' l
    else none

theorem appRun_reach {c : Cfg 8} {late : Bool} : ∀ (l : List (Bool × List Byte)) {t t' : Tun}, TReach c late t → appRun c t l = some t' → TReach c late t'
  | [], _, _, h, e => by cases e; exact h
  | (x, d) :: l, t, t', h, e => by
    unfold appRun at e
    split at e
    · next ha =>
      split at e
      · cases e
      · next t2 h2 => exact appRun_reach l (.step h (show TAllowed c late t (.app x d) from ha) h2) e
    · cases e

theorem appRun_exists {c : Cfg 8} {late : Bool} {l : List (Bool × List Byte)} {P : Tun → Prop} [DecidablePred P]
    (h : ((appRun c (Tun.init c.clk) l).any (fun t => decide (P t))) = true) : ∃ t, TReach c late t ∧ P t := by
  cases e : appRun c (Tun.init c.clk) l with
  | none => rw [e] at h; cases h
  | some t => rw [e] at h; exact ⟨t, appRun_reach l .init e, by simpa using h⟩

/-! ## Short sessions -/

theorem sorted_length {l : List Nat} (hs : Sorted l) {n : Nat} (h : ∀ x ∈ l, x < n) : l.length ≤ n := by
  have h2 := (sublist_range hs h).length_le
  rwa [List.length_range] at h2

/-- With few data, acks fit in a buffer. -/
theorem view_acks {c : Cfg 8} {late : Bool} (hc : c.Ok) {S : Sys}
    (h : ∃ s R, Reaches c late true s ∧ Longer s.dec.det.repairs R ∧ S = { s with dec := s.dec.withR R }) (hn : S.committed.length ≤ 21832) :
    ∀ a ∈ S.dec.out, (writeAck a).flatten.length ≤ bufferSize := by
  have := fact_of_valid hc.width
  obtain ⟨s, R, h1, -, rfl⟩ := h
  intro a ha
  obtain ⟨u, _, _, _, _, _, _, hI⟩ := (ginv_of_late hc h1.toLate _ (comData_agree s)).view
  have ho := hI.acks.out a ha
  have h2 : a.ids.length ≤ s.committed.length := sorted_length ho.1 (fun x hx => hI.knownLt x (ho.2.1 x hx))
  have h3 := writeIds_length a.ids
  have h4 : (writeAck a).flatten.length = 3 + (writeIds a.ids).flatten.length := by
    simp only [writeAck, List.flatten_append, List.length_append, List.flatten_cons, List.flatten_nil, beBytes_length, List.length_nil]
  simp only at hn
  rw [h4]
  unfold bufferSize
  omega

theorem acksFit_packet {c : Cfg 8} {late : Bool} (hc : c.Ok) {t : Tun} (h : ∀ x, DirInv c late (t.dir x)) {x : Bool} {i : Nat} {junk : List Byte}
    (hal : Permits c late (t.dir !x) (.deliver i)) (hn : (t.side !x).sent.length ≤ 21832) : AcksFit c t (.packet x i junk) := by
  intro s hs k hk
  have ho := h !x
  obtain ⟨e1, e2, e3⟩ := dir_dec t x
  have hcm : (t.dir !x).committed.length ≤ 21832 := hn
  cases hp : (t.side !x).enc.out[i]? with
  | none =>
    simp only [Tun.act, hp] at hs
    cases hs
    exact ho.acks k (e1 ▸ List.mem_of_mem_drop hk)
  | some p =>
    have hp' : (t.dir !x).enc.out[i]? = some p := by rw [e3]; exact hp
    have hlen := ho.pkts p (List.mem_of_getElem? hp')
    obtain ⟨S', k1, k2, k3, k4⟩ := dir_step hc ho _ hal (junk.take (bufferSize - p.bytes.length))
    obtain ⟨q1, q2⟩ := arrive_packet e1 e2 hp' hlen k1 k3 k2
    simp only [Tun.act, hp] at hs
    rw [q1] at hs
    cases hs
    have ec : S'.committed = (t.dir !x).committed := by rw [q2]
    exact view_acks hc k4 (by rw [ec]; exact hcm) k (List.mem_of_mem_drop hk)

theorem acksFit_timer {c : Cfg 8} {late : Bool} (hc : c.Ok) {t : Tun} (h : ∀ x, DirInv c late (t.dir x)) {x : Bool}
    (hn : (t.side !x).sent.length ≤ 21832) : AcksFit c t (.timer x) := by
  intro s hs k hk
  have ho := h !x
  obtain ⟨e1, e2, e3⟩ := dir_dec t x
  have hcm : (t.dir !x).committed.length ≤ 21832 := hn
  simp only [Tun.act] at hs
  cases hs
  have hk := List.mem_of_mem_drop hk
  unfold Side.timer at hk
  split at hk
  · obtain ⟨S', k1, -, -, k4⟩ := dir_step hc ho .genAck (permits_other trivial) []
    cases k1
    simp only at hk
    rw [← e1] at hk
    exact view_acks hc k4 hcm k hk
  · rw [← e1] at hk
    exact ho.acks k hk

end Netcode
