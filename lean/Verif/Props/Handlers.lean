import Verif.Proofs.Handlers
import Verif.Props.System
import Verif.Props.Decoder

/-!
# C55: an ack period of zero; C56, C57: handlers that throw
-/

namespace Netcode

variable {w : Nat}

/-! ## C55 -/

/-- The decoder has a period of zero and a count of at least `m`, and all its acks were due to the count. -/
structure Counted (m : Nat) (d : NDec) : Prop where
  period : d.ackPeriod = 0
  count : m ≤ d.ackNb
  acks : ∀ a ∈ d.out, m ≤ a.nbPackets

theorem Counted.maybeAckWith {m : Nat} {d : NDec} (h : Counted m d) (clk : Clock) (held : List Nat) :
    Counted m (d.maybeAckWith clk held) := by
  unfold NDec.maybeAckWith
  split
  · rename_i hc
    refine ⟨h.period, h.count, ?_⟩
    intro a ha
    simp only [NDec.generateAckWith, List.mem_append, List.mem_singleton] at ha
    rcases ha with ha | rfl
    · exact h.acks a ha
    · exact Nat.le_trans h.count hc
  · rw [if_neg (by simpa using h.period)]
    exact h

theorem Counted.fold {m : Nat} (clk : Clock) (l : List Event) {d : NDec} (h : Counted m d) :
    Counted m (l.foldl (NDec.handleSource clk) d) := by
  induction l generalizing d with
  | nil => exact h
  | cons ev t ih => exact ih (Counted.maybeAckWith (d := { d with data := d.data ++ [ev.data] }) ⟨h.period, h.count, h.acks⟩ clk _)

theorem Counted.notify {m : Nat} {gf : GF w} {dbg : Bool} {clk : Clock} {d d' : NDec} {p : List Byte} {r : Except CppErr Nat}
    (h : Counted m d) (hn : d.notify gf dbg clk p = .ok (d', r)) : Counted m d' := by
  unfold NDec.notify at hn
  obtain ⟨_, _, hn⟩ := bind_ok_iff.1 hn
  cases ht : getPacketType p with
  | error x => rw [ht] at hn; cases x <;> cases hn; exact h
  | ok ty =>
    rw [ht] at hn
    cases ty with
    | ack => cases hn; exact h
    | repair =>
      simp only at hn
      cases hr : readRepair p with
      | error x => rw [hr] at hn; cases x <;> cases hn; exact ⟨h.period, h.count, h.acks⟩
      | ok y =>
        rw [hr] at hn
        obtain ⟨det', _, hn⟩ := bind_ok_iff.1 hn
        cases hn
        exact Counted.fold clk _ ⟨h.period, h.count, h.acks⟩
    | source =>
      simp only at hn
      cases hr : readSource p with
      | error x => rw [hr] at hn; cases x <;> cases hn; exact ⟨h.period, h.count, h.acks⟩
      | ok y =>
        rw [hr] at hn
        obtain ⟨det', _, hn⟩ := bind_ok_iff.1 hn
        cases hn
        exact Counted.fold clk _ ⟨h.period, h.count, h.acks⟩

/-- **C55, in part.** After `set_ack_period(0)`, in any history in which the period is not changed again, `generate_ack` is not called
and the count is never set below `m` (at most 50, the default), each ack reports at least `m` packets: acks are still sent automatically,
but only because the count is reached. -/
theorem C55_count_only_partial (gf : GF w) (dbg : Bool) (clk : Clock) (io : Bool) (m : Nat) (hm : m ≤ 50) (acts : List DAct)
    (ha : ∀ a ∈ acts, (∀ ms, a ≠ .setAckPeriod ms) ∧ a ≠ .genAck ∧ ∀ n, a = .setAckNb n → m ≤ n) (d : NDec)
    (h : ((NDec.init clk io).setAckPeriod 0).after gf dbg clk acts = .ok d) : ∀ a ∈ d.out, m ≤ a.nbPackets := by
  have h0 : Counted m ((NDec.init clk io).setAckPeriod 0) := ⟨rfl, hm, by simp [NDec.init, NDec.setAckPeriod]⟩
  suffices Counted m d from this.acks
  revert h h0
  generalize (NDec.init clk io).setAckPeriod 0 = d0
  intro h h0
  induction acts generalizing d0 with
  | nil => cases h; exact h0
  | cons a t ih =>
    unfold NDec.after at h
    rw [List.foldlM_cons, bind_ok_iff] at h
    obtain ⟨d1, h1, h⟩ := h
    refine ih (fun b hb => ha b (by simp [hb])) d1 h ?_
    obtain ⟨k1, k2, k3⟩ := ha a (by simp)
    cases a with
    | packet p =>
      simp only [NDec.act] at h1
      rw [map_ok_iff] at h1
      obtain ⟨x, hx, rfl⟩ := h1
      exact h0.notify hx
    | genAck => exact absurd rfl k2
    | maybeAck => cases h1; exact h0.maybeAckWith clk _
    | setAckNb n =>
      simp only [NDec.act, NDec.setAckNb] at h1
      obtain ⟨_, _, h1⟩ := bind_ok_iff.1 h1
      cases h1
      exact ⟨h0.period, by have := k3 n rfl; simp only; omega, h0.acks⟩
    | setAckPeriod ms => exact absurd rfl (k1 ms)

/-- An ack for each packet although the period is zero; with the default count, four packets cause none. -/
example : (((NDec.init clk0 false).setAckPeriod 0).after gf8 true clk0 (.setAckNb 2 :: give [0, 1, 2, 3])).toOption.map
    (fun d => d.out.map (·.nbPackets)) = some [2, 2] := by decide +kernel
example : (((NDec.init clk0 false).setAckPeriod 0).after gf8 true clk0 (give [0, 1, 2, 3])).toOption.map
    (fun d => d.out.map (·.nbPackets)) = some [] := by decide +kernel

/-- **C55 fails**: with a period of zero, acks "won't be sent automatically" (decoder.hh:252), but this decoder sends one although
neither `generate_ack` nor `maybe_ack` was called. -/
theorem C55_false (dbg : Bool) :
    ¬ ∀ (acts : List DAct), (∀ a ∈ acts, ∃ p, a = .packet p) → ∀ d n,
      ((NDec.init clk0 false).setAckPeriod 0).after gf8 dbg clk0 (.setAckNb n :: acts) = .ok d → d.out = [] := by
  intro h
  have h1 := h (give [0]) (by simp [give])
  have h2 : (((NDec.init clk0 false).setAckPeriod 0).after gf8 dbg clk0 (.setAckNb 1 :: give [0])).toOption.map (fun d => d.out.length) =
      some 1 := by
    clear h h1; revert dbg; decide +kernel
  cases hd : ((NDec.init clk0 false).setAckPeriod 0).after gf8 dbg clk0 (.setAckNb 1 :: give [0]) with
  | error f => rw [hd] at h2; cases h2
  | ok d =>
    rw [hd] at h2
    rw [show (Except.ok d : Out NDec).toOption = some d from rfl, Option.map_some, h1 d 1 hd] at h2
    cases h2

/-! ## C56: the packet handler of an encoder throws -/

/-- **C56, in part.** If the packet handler throws in no commit, but in any number of calls of `generate_repair`, the repairs it throws for
are lost and nothing else: the window, the counters, the identifiers, the decoder at the other end and the data it handed over are those
of a run in which the handler does not throw, and the packets sent are some of those of that run, in the same order.
Missing: a commit in which the handler throws. -/
theorem C56_repairs_partial (c : Cfg w) (io : Bool) (acts : List TAct) (ha : ∀ x ∈ acts, TAct.SafeCommit x) (s : Sys)
    (h : (Sys.init c.clk io).runT c acts = .ok s) :
    ∃ acts' s', (Sys.init c.clk io).run c acts' = .ok s' ∧ s.dec = s'.dec ∧ s.committed = s'.committed ∧
      s.enc = { s'.enc with out := s.enc.out } ∧ List.Sublist s.enc.out s'.enc.out := by
  obtain ⟨acts', s', h1, hb⟩ := run_behind acts ⟨rfl, rfl, rfl, List.Sublist.refl _⟩ ha h
  exact ⟨acts', s', h1, hb.dec, hb.committed, hb.enc, hb.out⟩

/-- Without exceptions, the model with handlers that may throw is the model. -/
theorem C56_model (c : Cfg w) (s : Sys) (acts : List Act) :
    s.runT c (acts.map fun a => (a, false, false)) = s.run c acts := by
  unfold Sys.runT Sys.run
  induction acts generalizing s with
  | nil => rfl
  | cons a t ih =>
    rw [List.map_cons, List.foldlM_cons, List.foldlM_cons]
    have e : s.stepT c (a, false, false) = s.step c a := by
      cases a with
      | commit d =>
        simp only [Sys.stepT, Sys.step, commitH_false]
        cases s.enc.commit c.gf c.dbg d <;> rfl
      | repair =>
        simp only [Sys.stepT, Sys.step, generateRepairH_false]
        cases s.enc.generateRepair c.gf c.dbg <;> rfl
      | _ => rfl
    rw [e]
    cases s.step c a with
    | error f => rfl
    | ok s1 => exact ih s1

/-- The handler throws for the first of two repairs; source 1 is lost and decoded from the second one. -/
def throwRepair : List TAct :=
  [(.setRate 100, false, false), (.commit [1], false, false), (.commit [2, 3], false, false), (.repair, true, false),
   (.repair, false, false), (.deliver 0, false, false), (.deliver 2, false, false)]
example : ∀ x ∈ throwRepair, TAct.SafeCommit x := by simp [throwRepair, TAct.SafeCommit]
example : (Sys.runT (cfg8 true) (Sys.init (cfg8 true).clk false) throwRepair).toOption.map
    (fun s => (s.dec.data, s.enc.out.length, s.enc.nbSentRepairs)) = some ([[1], [2, 3]], 3, 2) := by decide +kernel

/-- The handler throws while it is given the packet of the first commit, the next commit reuses its identifier and a repair encodes both
under that identifier. -/
def throwCommit : List TAct :=
  [(.setRate 100, false, false), (.commit [1], true, false), (.commit [2, 4], false, false), (.repair, false, false), (.deliver 1, false, false)]

/-- **C56 fails** for a commit: a decoder then hands over a datum that was never given to the encoder. -/
theorem C56_false_commit (dbg : Bool) :
    ¬ ∀ (acts : List TAct) s, (Sys.init (cfg8 dbg).clk false).runT (cfg8 dbg) acts = .ok s → ∀ d ∈ s.dec.data, d ∈ s.committed := by
  intro h
  have h2 : (Sys.runT (cfg8 dbg) (Sys.init (cfg8 dbg).clk false) throwCommit).toOption.map
      (fun s => (s.dec.data, s.committed)) = some ([[3, 4, 0]], [[1], [2, 4]]) := by
    clear h; revert dbg; decide +kernel
  cases hs : Sys.runT (cfg8 dbg) (Sys.init (cfg8 dbg).clk false) throwCommit with
  | error f => rw [hs] at h2; cases h2
  | ok s =>
    rw [hs] at h2
    simp only [Except.toOption, Option.map_some, Option.some.injEq, Prod.mk.injEq] at h2
    have h1 := h throwCommit s hs [3, 4, 0] (by rw [h2.1]; simp)
    rw [h2.2] at h1
    revert h1
    decide

/-- The user gives the datum again after the exception. -/
def throwRetry : List TAct :=
  [(.setRate 100, false, false), (.commit [7], true, false), (.commit [7], false, false), (.repair, false, false), (.deliver 1, false, false)]

/-- **C56 fails** also when the datum whose commit threw is given again: the two copies cancel out in the repair, and the decoder hands
over an empty datum. -/
theorem C56_false_retry (dbg : Bool) :
    (Sys.runT (cfg8 dbg) (Sys.init (cfg8 dbg).clk false) throwRetry).toOption.map (fun s => (s.dec.data, s.committed)) =
      some ([[]], [[7], [7]]) := by
  revert dbg; decide +kernel

/-- A function that calls the packet handler once: one more packet was sent, or, if it threw, none. -/
theorem emitNewH_inv {gf : GF w} {dbg t x : Bool} {src : ESource} {e e' : Enc} (h : Enc.emitNewH gf dbg t src e = .ok (e', x)) :
    x = t ∧ e'.curSrc = e.curSrc ∧ e'.sources = e.sources ∧ e'.rate = e.rate ∧ (t = true → e'.out = e.out) ∧
      (t = false → Enc.emitNew gf dbg src e = .ok e' ∧ ∃ p, e'.out = e.out ++ [p]) := by
  unfold Enc.emitNewH Enc.emitNew at *
  split at h
  · rename_i hs
    cases t <;> cases h <;> simp [hs]
  · rename_i hs
    unfold Enc.generateRepairH at h
    unfold Enc.generateRepair
    obtain ⟨r, h1, h⟩ := bind_ok_iff.1 h
    obtain ⟨_, h2, h⟩ := bind_ok_iff.1 h
    cases t <;> cases h <;> simp [hs, h1, h2, bind, Except.bind, pure, Except.pure]

theorem generateRepairH_inv {gf : GF w} {dbg t x : Bool} {e e' : Enc} (h : e.generateRepairH gf dbg t = .ok (e', x)) :
    x = t ∧ e'.curSrc = e.curSrc ∧ e'.sources = e.sources ∧ (t = true → e'.out = e.out) ∧
      (t = false → e.generateRepair gf dbg = .ok e') := by
  unfold Enc.generateRepairH at h
  unfold Enc.generateRepair
  obtain ⟨r, h1, h⟩ := bind_ok_iff.1 h
  obtain ⟨_, h2, h⟩ := bind_ok_iff.1 h
  cases t <;> cases h <;> simp [h1, h2, bind, Except.bind, pure, Except.pure]

/-- **C56**, what a commit does when the packet handler throws for its first (`t1`) or its second packet (`t2`), the automatic repair.  The
caller gets the exception exactly if the handler threw.  If not, the commit is an ordinary one.  If so, the datum is in the window, the packet the
handler threw for was not sent and the one before was, and the next commit will use the same identifier. -/
theorem C56_commit (gf : GF w) (dbg t1 t2 x : Bool) (e e' : Enc) (d : List Byte) (h : e.commitH gf dbg t1 t2 d = .ok (e', x)) :
    (x = true ↔ t1 = true ∨ (t2 = true ∧ (e.curSrc + 1) % 2 ^ 32 % e.rate = 0)) ∧
    (x = false → e.commit gf dbg d = .ok e') ∧
    (x = true → e'.curSrc = e.curSrc ∧
      e'.sources = (if e.sources.length = e.windowSize then e.sources.tail else e.sources) ++ [⟨e.curSrc, d⟩] ∧
      (t1 = true → e'.out = e.out) ∧ (t1 = false → ∃ p, e'.out = e.out ++ [p])) := by
  unfold Enc.commitH at h
  unfold Enc.commit
  obtain ⟨_, a1, h⟩ := bind_ok_iff.1 h
  obtain ⟨_, a2, h⟩ := bind_ok_iff.1 h
  obtain ⟨_, a3, h⟩ := bind_ok_iff.1 h
  obtain ⟨_, a4, h⟩ := bind_ok_iff.1 h
  obtain ⟨⟨e1, x1⟩, a5, h5⟩ := bind_ok_iff.1 h
  clear h
  obtain ⟨rfl, b2, b3, b4, b5, b6⟩ := emitNewH_inv a5
  cases x1 with
  | true =>
    cases h5
    exact ⟨by simp, by simp, fun _ => ⟨b2, b3, b5, by simp⟩⟩
  | false =>
    obtain ⟨c1, c2⟩ := b6 rfl
    simp only [Bool.false_eq_true, if_false] at h5
    obtain ⟨_, a6, h5⟩ := bind_ok_iff.1 h5
    replace b2 : e1.curSrc = e.curSrc := b2
    replace b4 : e1.rate = e.rate := b4
    rw [b2, b4] at h5
    rw [b4] at a6
    split at h5
    · rename_i hdue
      obtain ⟨⟨e2, x2⟩, a7, h6⟩ := bind_ok_iff.1 h5
      clear h5
      obtain ⟨rfl, g2, g3, g4, g5⟩ := generateRepairH_inv a7
      cases x2 with
      | true =>
        cases h6
        refine ⟨by simp [hdue], by simp, fun _ => ⟨by rw [g2, b2], by rw [g3, b3], by simp, fun _ => ?_⟩⟩
        rw [g4 rfl]; exact c2
      | false =>
        cases h6
        refine ⟨by simp, fun _ => ?_, by simp⟩
        simp only [a1, a2, a3, a4, c1, bind, Except.bind, pure, Except.pure]
        unfold Enc.autoRepair
        simp only [a6, bind, Except.bind, b2, b4, hdue, if_true, g5 rfl]
    · rename_i hdue
      cases h5
      refine ⟨by simp [hdue], fun _ => ?_, by simp⟩
      simp only [a1, a2, a3, a4, c1, bind, Except.bind, pure, Except.pure]
      unfold Enc.autoRepair
      simp only [a6, bind, Except.bind, b2, b4, hdue, if_false]

/-- Both cases: the handler throws for the source, and for the repair. -/
example : (Enc.init.commitH gf8 true true false [1]).toOption.map (fun x => (x.2, x.1.curSrc, x.1.window, x.1.out.length)) =
    some (true, 0, 1, 0) := by decide +kernel
example : (Enc.commitH gf8 true false true { Enc.init with rate := 1 } [1]).toOption.map (fun x => (x.2, x.1.curSrc, x.1.window, x.1.out.length)) =
    some (true, 0, 1, 1) := by decide +kernel

/-- The handler throws for the automatic repair after the first datum; the next datum gets the same identifier. -/
def throwAuto : List TAct :=
  [(.setRate 1, false, false), (.commit [1], false, true), (.commit [2], false, false), (.deliver 0, false, false), (.deliver 1, false, false)]

/-- **C56 fails** also when the handler throws for the automatic repair of a commit: the source that follows arrives and is taken for the
one before. -/
theorem C56_false_auto (dbg : Bool) :
    (Sys.runT (cfg8 dbg) (Sys.init (cfg8 dbg).clk false) throwAuto).toOption.map (fun s => (s.dec.data, s.committed, s.hist)) =
      some ([[1]], [[1], [2]], [0, 1]) := by
  revert dbg; decide +kernel

/-! ## C57: the data handler of a decoder throws -/

/-- Without exceptions, the model with a handler that may throw is the model. -/
theorem C57_model (gf : GF w) (dbg : Bool) (clk : Clock) (d : NDec) (p : List Byte) :
    d.notifyH gf (fun _ => false) dbg clk p =
      match d.notify gf dbg clk p with
      | .error f => .error (.fault f)
      | .ok (d', .ok n) => .ok (d', .read n)
      | .ok (d', .error x) => .ok (d', .cpp x) := by
  rw [notify_never]
  cases d.notify gf dbg clk p with
  | error f => rfl
  | ok x => obtain ⟨d', r⟩ := x; cases r <;> rfl

/-- **C57, in part.** Whatever the state of the decoder, the packet and the calls in which the data handler throws (`H`): either the call
ends as with a handler that does not throw, or it ends with the user's exception; then the data handed over and the acks sent so far are
the first ones of those it hands over and sends when the handler does not throw, and the handler's last call was one in which it throws.
Missing: what the decoder does after the exception. -/
theorem C57_until_exception_partial (gf : GF w) (H : DHandler) (dbg : Bool) (clk : Clock) (d d' d'' : NDec) (p : List Byte) (r : HRes)
    (o : Except CppErr Nat) (h : d.notifyH gf H dbg clk p = .ok (d', r)) (h' : d.notify gf dbg clk p = .ok (d'', o)) :
    (d' = d'' ∧ r = (match o with | .ok n => .read n | .error x => .cpp x)) ∨
    (r = .user ∧ d'.data <+: d''.data ∧ d'.out <+: d''.out ∧ ∃ k, H k = true ∧ k + 1 = d'.det.log.length) :=
  notify_cut H h h'

/-- **C57, in part.** A handler that throws when it is given the source of the packet that just arrived (without ordering, or if this
source is the next one) leaves the decoder as it was before that packet, except for the count of packets: the packet is
as good as lost, apart from the call of the handler. -/
theorem C57_source_lost_partial (gf : GF w) (H : DHandler) (dbg : Bool) (clk : Clock) (d : NDec) (p : List Byte) (src : DSource) (n : Nat)
    (hp : p.head? = some 2#8) (hr : readSource p = .ok (src, n)) (h1 : ¬ d.det.Outdated src.id) (h2 : ¬ d.det.Holds src.id)
    (h3 : d.det.inOrder = false ∨ src.id = d.det.firstMissing) (h4 : H d.det.log.length = true) :
    d.notifyH gf H dbg clk p = .ok ({ d with
      nbSources := d.nbSources + 1
      ackPackets := (d.ackPackets + 1) % 2 ^ 16
      data := d.data ++ [src.sym]
      det := d.det.callback src }, .user) := by
  have hne : p.length ≠ 0 := by intro e; rw [List.length_eq_zero_iff.1 e] at hp; cases hp
  have ht : getPacketType p = .ok .source := by
    cases p with
    | nil => cases hp
    | cons b t => cases hp; rfl
  unfold NDec.notifyH
  have h0 : cassert dbg (decide (p.length ≠ 0)) = .ok () := by
    unfold cassert
    simp [hne]
  simp only [h0, ht, hr, onSource_untouched H (gf := gf) (dbg := dbg) h1 h2 h3 h4, NDec.afterDetH]
  simp [Dec.callback]

/-- **C57, in part.** Without ordering an exception of the handler always reaches the caller. -/
theorem C57_reaches_caller_partial (gf : GF w) (H : DHandler) (dbg : Bool) (clk : Clock) (d : NDec) (p : List Byte)
    (ho : d.det.inOrder = false) : d.notifyH gf H dbg clk p ≠ .error .terminate := by
  intro h
  rw [notify_terminate H h] at ho
  cases ho

/-- The second source is lost on an exception and handed over when its packet comes again. -/
example : (Sys.runH (cfg8 true) (fun n => n == 1) (Sys.init (cfg8 true).clk false)
    [.setRate 100, .commit [1], .commit [2], .deliver 0, .deliver 1, .deliver 1]).toOption.map (fun s => (s.dec.data, s.dec.det.sources.keys)) =
    some ([[1], [2], [2]], [0, 1]) := by decide +kernel

/-- Two sources are lost and decoded together; then the second one arrives. -/
def decodeThrow : List Act :=
  [.setRate 100, .commit [1], .commit [2], .repair, .repair, .deliver 2, .deliver 3, .deliver 1]

/-- The reason why a run stopped. -/
def stopOf {α : Type} : Except Stop α → Option Stop
  | .ok _ => none
  | .error e => some e

/-- **C57 fails**: an exception in the first call of the handler, for a source decoded together with another one, leaves a decoder
for which the next packet is a failed assertion or undefined behaviour; without the exception the run is fine. -/
theorem C57_false_next (dbg : Bool) :
    stopOf (Sys.runH (cfg8 dbg) (fun n => n == 0) (Sys.init (cfg8 dbg).clk false) decodeThrow) =
      some (.fault (if dbg then .assertion else .ub .staleRead)) ∧
    (Sys.run (cfg8 dbg) (Sys.init (cfg8 dbg).clk false) decodeThrow).toOption.map (fun s => s.dec.data) = some [[1], [2]] ∧
    stopOf (Sys.runH (cfg8 dbg) (fun n => n == 0) (Sys.init (cfg8 dbg).clk false) (decodeThrow.take 7)) = none := by
  revert dbg; decide +kernel

/-- With ordering: source 1 is withheld, then the window of the encoder moves beyond it. -/
def outdatedThrow : List Act :=
  [.setRate 100, .setWindow 1, .commit [1], .commit [2], .commit [3], .repair, .deliver 1, .deliver 3]

/-- **C57 fails** with ordering: the exception does not reach the caller, it terminates the program (`drop_outdated` is `noexcept` and calls
the handler for withheld sources, detail/decoder.cc:341-389). -/
theorem C57_false_terminate (dbg : Bool) :
    stopOf (Sys.runH (cfg8 dbg) (fun n => n == 0) (Sys.init (cfg8 dbg).clk true) outdatedThrow) = some .terminate ∧
    (Sys.run (cfg8 dbg) (Sys.init (cfg8 dbg).clk true) outdatedThrow).toOption.map (fun s => s.dec.data) = some [[2], [3]] := by
  revert dbg; decide +kernel

end Netcode
