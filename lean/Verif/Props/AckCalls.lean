import Verif.Proofs.AckCalls
import Verif.Props.DataCalls

/-!
# C91: the packet handler of a decoder may call the decoder
-/

namespace Netcode

variable {w : Nat}

/-- **C91, in part.** For any packets, from any sender: a packet handler that, told that an ack is complete, asks for acks (but no
more from its `k`-th ack on) and changes settings, changes nothing but acks.  All calls return or throw the same, the same data are handed
over in the same order, and the decoder ends in the same state.  `2 * k + 3` is how deep the calls may go.
Missing: handlers that ask for acks again and again, see `C91_false_maybe`. -/
theorem C91_same_partial (gf : GF w) (dbg : Bool) (clk : Clock) (io : Bool) (H : Nat → List DCall) (hH : CallsOk H) (k : Nat)
    (hk : SettlesAt k H) (ps : List (List Byte)) :
    (∀ f, NDec.feed (NDec.notify gf dbg clk) (NDec.init clk io) ps = .error f →
      NDec.feed (NDec.notifyK gf dbg clk H (2 * k + 3)) (NDec.init clk io) ps = .error f) ∧
    ∀ d rs, NDec.feed (NDec.notify gf dbg clk) (NDec.init clk io) ps = .ok (d, rs) →
      ∃ e, NDec.feed (NDec.notifyK gf dbg clk H (2 * k + 3)) (NDec.init clk io) ps = .ok (e, rs) ∧
        e.data = d.data ∧ e.det = d.det ∧ e.nbRepairs = d.nbRepairs ∧ e.nbSources = d.nbSources := by
  have key : ∀ (ps : List (List Byte)) (d e : NDec), ButAcks d e →
      (∀ f, NDec.feed (NDec.notify gf dbg clk) d ps = .error f → NDec.feed (NDec.notifyK gf dbg clk H (2 * k + 3)) e ps = .error f) ∧
      ∀ d' rs, NDec.feed (NDec.notify gf dbg clk) d ps = .ok (d', rs) →
        ∃ e', NDec.feed (NDec.notifyK gf dbg clk H (2 * k + 3)) e ps = .ok (e', rs) ∧ ButAcks d' e' := by
    intro ps
    induction ps with
    | nil =>
      intro d e h
      refine ⟨fun f hf => (by cases hf), fun d' rs hd => ?_⟩
      cases hd
      exact ⟨e, rfl, h⟩
    | cons p t ih =>
      intro d e h
      obtain ⟨k1, k2⟩ := notifyK_frame gf (dbg := dbg) (clk := clk) (H := H) (fuel := 2 * k + 3) h p
      unfold NDec.feed
      cases hn : d.notify gf dbg clk p with
      | error f =>
        rw [k1 f hn]
        exact ⟨fun g hg => hg, fun d' rs hd => by cases hd⟩
      | ok x =>
        obtain ⟨d1, r⟩ := x
        obtain ⟨e1, g1⟩ := (k2 d1 r hn).2 (handleK_returns hH hk (Nat.le_refl _))
        obtain ⟨-, g2, -⟩ := (k2 d1 r hn).1 e1 r g1
        rw [g1]
        obtain ⟨i1, i2⟩ := ih d1 e1 g2
        simp only [bind, Except.bind]
        cases hf : NDec.feed (NDec.notify gf dbg clk) d1 t with
        | error f => rw [i1 f hf]; exact ⟨fun g hg => hg, fun d' rs hd => by cases hd⟩
        | ok y =>
          obtain ⟨d2, rs2⟩ := y
          obtain ⟨e2, j1, j2⟩ := i2 d2 rs2 hf
          rw [j1]
          refine ⟨fun g hg => (by cases hg), fun d' rs hd => ?_⟩
          cases hd
          exact ⟨e2, rfl, j2⟩
  obtain ⟨k1, k2⟩ := key ps _ _ (ButAcks.refl (NDec.init clk io))
  refine ⟨k1, fun d rs h => ?_⟩
  obtain ⟨e, h1, h2⟩ := k2 d rs h
  exact ⟨e, h1, h2.data, h2.det, h2.repairs, h2.sources⟩

/-- **C91, in part.** An encoder and a decoder with such a handler, whose acks reach the encoder: what is handed over was committed,
each datum at most once, in order if asked for; and acks list sources that were committed, and without ordering only ones the decoder
knows. -/
theorem C91_system_partial {c : Cfg w} (hc : c.Ok) {late io : Bool} {s : Sys} (h : ReachK c late io s) :
    (∀ ev ∈ s.dec.det.log, s.committed[ev.id]? = some ev.data) ∧ s.dec.data = s.dec.det.log.map (·.data) ∧
      s.dec.det.handed.Nodup ∧ (io = true → s.dec.data.Sublist s.committed) ∧
      ∀ a ∈ s.dec.out, ∀ x ∈ a.ids, x < s.committed.length ∧ (io = false → s.dec.det.Knows x) := by
  have := fact_of_valid hc.width
  have hG := ginv_of_K hc h (comData s) (comData_agree s)
  cases io with
  | false =>
    obtain ⟨ems, A, ρ, L, W, K, hI⟩ := hG
    refine ⟨fun ev hev => ?_, hI.dataLog, hI.handed_nodup, fun h0 => (by cases h0), fun a ha x hx => ?_⟩
    · have h1 := hI.dinv.log.logData ev hev
      have h2 : ev.id < s.committed.length := hI.handed_lt (List.mem_map_of_mem hev)
      rw [h1, List.getElem?_eq_getElem h2]
      unfold comData
      rw [List.getD_eq_getElem?_getD, List.getElem?_eq_getElem h2]
      rfl
    · have hx := (hI.acks.out a ha).2.1 x hx
      exact ⟨hI.knownLt x hx, fun _ => (hI.knows_iff x).2 hx⟩
  | true =>
    obtain ⟨ems, A, ρ, L, W, K, u, hI⟩ := hG
    refine ⟨fun ev hev => ?_, hI.dataLog, hI.ord.logSorted.imp (fun h => Nat.ne_of_lt h), fun _ => hI.sublist rfl, fun a ha x hx => ?_⟩
    · have h1 := hI.logData ev hev
      have h2 : ev.id < s.committed.length := hI.handed_lt (List.mem_map_of_mem hev)
      rw [h1, List.getElem?_eq_getElem h2]
      unfold comData
      rw [List.getD_eq_getElem?_getD, List.getElem?_eq_getElem h2]
      rfl
    · have hx := (hI.inv.acks.out a ha).2.1 x hx
      exact ⟨hI.inv.knownLt x hx, fun h0 => by cases h0⟩

/-- **C91, in part.** With a handler that asks for no more acks from its `k`-th ack on, all calls return, and none throws, asserts or has
undefined behaviour. -/
theorem C91_no_fault_partial {c : Cfg w} (hc : c.Ok) {late io : Bool} {s : Sys} (h : ReachK c late io s) {a : Act} (ha : Permits c late s a)
    {H : Nat → List DCall} (hH : CallsOk H) {k : Nat} (hk : SettlesAt k H) : ∃ s', s.stepK c H (2 * k + 3) a = .ok s' ∧ s'.errs = 0 := by
  have := fact_of_valid hc.width
  have hag : Agree (fun x => if x = s.committed.length then (match a with | .commit d => d | _ => []) else comData s x) s.committed := by
    intro x d hx
    have hlt := getElem?_lt hx
    show (if x = s.committed.length then _ else _) = d
    rw [if_neg (Nat.ne_of_lt hlt)]
    exact comData_agree s x d hx
  have hG := ginv_of_K hc h _ hag
  obtain ⟨s', h1⟩ := hG.stepK_returns hc hag a ha.toLate (by rintro d rfl; simp) hH hk (Nat.le_refl _)
  exact ⟨s', h1, (hG.stepK hc hag a ha.toLate (by rintro d rfl; simp) h1).errs⟩

/-- A handler that makes no calls: the model is that of `Model/NDecoder.lean`. -/
theorem C91_model (dbg : Bool) (clk : Clock) (held : List Nat) (d : NDec) :
    d.callK dbg clk (fun _ => []) held 3 .genAck = .ok (d.generateAckWith held) ∧
    d.callK dbg clk (fun _ => []) held 3 .maybeAck = .ok (d.maybeAckWith clk held) := by
  refine ⟨rfl, ?_⟩
  unfold NDec.maybeAckWith
  rw [NDec.callK]
  split
  · rfl
  · split
    · simp only
      split <;> rfl
    · rfl

/-! ## Examples -/

/-- A run of such a system. -/
def runK (c : Cfg w) (H : Nat → List DCall) (fuel : Nat) : Sys → List Act → Option Sys
  | s, [] => some s
  | s, a :: t =>
    if allowedB c s a then
      match s.stepK c H fuel a with
      | .ok s' => runK c H fuel s' t
      | .error _ => none
    else none

theorem runK_reach {c : Cfg w} {H : Nat → List DCall} (hH : CallsOk H) {io : Bool} {fuel : Nat} {acts : List Act} {s s' : Sys}
    (h : ReachK c false io s) (hr : runK c H fuel s acts = some s') : ReachK c false io s' := by
  induction acts generalizing s with
  | nil => cases hr; exact h
  | cons a t ih =>
    unfold runK at hr
    split at hr
    · rename_i ha
      split at hr
      · rename_i s1 h1
        exact ih (h.step (a := a) (allowed_of_B ha) hH h1) hr
      · cases hr
    · cases hr

/-- A handler that asks for another ack within its first one, and changes the settings within the third. -/
def demoAckCalls (n : Nat) : List DCall := if n = 0 then [.genAck] else if n = 2 then [.setAckNb 1, .setAckPeriod 0] else []

theorem demoAckCalls_ok : CallsOk demoAckCalls := by
  intro n x hx
  unfold demoAckCalls at hx
  split at hx
  · simp at hx; subst hx; trivial
  · split at hx
    · simp at hx; rcases hx with rfl | rfl <;> simp [DCall.Ok]
    · cases hx

theorem demoAckCalls_settles : SettlesAt 1 demoAckCalls := by
  intro n hn x hx
  unfold demoAckCalls at hx
  rw [if_neg (by omega)] at hx
  split at hx
  · simp at hx; rcases hx with rfl | rfl <;> trivial
  · cases hx

/-- Source 1 is lost and recovered, with acks in between. -/
def demoAckActs : List Act :=
  [.setRate 3, .commit [1, 2], .commit [3], .commit [4, 5, 6], .deliver 0, .genAck, .ack 0, .deliver 2, .genAck, .ack 2, .deliver 3, .commit [7], .deliver 4]

@[irreducible] def ackCallsReached (c : Cfg w) (io : Bool) (H : Nat → List DCall) (fuel : Nat) (acts : List Act) : Sys :=
  (runK c H fuel (Sys.init c.clk io) acts).getD (Sys.init c.clk io)

theorem ackCallsReached_reach {c : Cfg w} {io : Bool} {H : Nat → List DCall} (hH : CallsOk H) {fuel : Nat} {acts : List Act}
    (h : (runK c H fuel (Sys.init c.clk io) acts).isSome = true) : ReachK c false io (ackCallsReached c io H fuel acts) := by
  obtain ⟨s, hs⟩ := Option.isSome_iff_exists.1 h
  unfold ackCallsReached
  rw [hs]
  exact runK_reach hH .init hs

example (dbg io : Bool) : ReachK (cfg8 dbg) false io (ackCallsReached (cfg8 dbg) io demoAckCalls 5 demoAckActs) :=
  ackCallsReached_reach demoAckCalls_ok (by revert dbg io; decide +kernel)

/-- The four data are handed over. The last acks are those of the setting that the handler made. -/
example : (ackCallsReached (cfg8 true) false demoAckCalls 5 demoAckActs).dec.det.handed = [0, 2, 1, 3] ∧
    (ackCallsReached (cfg8 true) false demoAckCalls 5 demoAckActs).dec.out.map (·.ids) = [[0], [0], [0, 2], [0, 2], [0, 1, 2]] := by decide +kernel

/-! ## Where the statement fails -/

/-- **C91** is false: a packet handler that calls `maybe_ack` for each ack never returns once an ack is due, be it because of the number of
packets or because of the time.  (`.fuel` for all `fuel`: the calls go deeper than any bound.)  The count of packets and the date of the
last ack are only reset after the handler returned, so that the ack is due again within the handler. -/
theorem C91_false_maybe (dbg : Bool) (clk : Clock) (held : List Nat) (d : NDec)
    (h : d.ackNb ≤ d.ackPackets ∨ (d.ackPeriod ≠ 0 ∧ ∀ i, d.ackPeriod * 1000000 ≤ clk i - d.lastAck)) (fuel : Nat) :
    d.callK dbg clk (fun _ => [.maybeAck]) held fuel .maybeAck = .error .fuel := by
  suffices key : ∀ fuel, ∀ d : NDec, (d.ackNb ≤ d.ackPackets ∨ (d.ackPeriod ≠ 0 ∧ ∀ i, d.ackPeriod * 1000000 ≤ clk i - d.lastAck)) →
      d.callK dbg clk (fun _ => [.maybeAck]) held fuel .maybeAck = .error .fuel ∧
      d.callK dbg clk (fun _ => [.maybeAck]) held fuel .genAck = .error .fuel from (key fuel d h).1
  intro fuel
  induction fuel with
  | zero => exact fun d _ => ⟨rfl, rfl⟩
  | succ n ih =>
    intro d h
    refine ⟨?_, ?_⟩
    · rw [NDec.callK]
      split
      · rw [(ih d h).2]; rfl
      · next hn =>
        have h' := h.resolve_left hn
        rw [if_pos h'.1]
        simp only
        rw [if_pos (h'.2 _)]
        have := (ih { d with ticks := d.ticks + 1 } (.inr ⟨h'.1, h'.2⟩)).2
        rw [this]
        rfl
    · rw [NDec.callK]
      simp only [List.foldlM_cons]
      have := (ih (d.inAck held) h).1
      unfold NDec.inAck at this
      rw [this]
      rfl

/-- A source packet arrives at a decoder that acknowledges each packet. -/
example (dbg : Bool) (fuel : Nat) :
    faultOf (NDec.callK dbg clk0 (fun _ => [.maybeAck]) [0] fuel { NDec.init clk0 true with ackNb := 1, ackPackets := 1 } .maybeAck) = some .fuel := by
  rw [C91_false_maybe dbg clk0 [0] _ (.inl (Nat.le_refl _)) fuel]; rfl

/-- **C91** is false of the counts of packets: two packets arrived, and the two acks, one within the other, report two each. -/
theorem C91_false_count (dbg : Bool) :
    (runK (cfg8 dbg) demoAckCalls 5 (Sys.init (cfg8 dbg).clk true) [.commit [1], .commit [2], .deliver 0, .deliver 1, .genAck]).map
      (fun s => (s.dec.nbSources, s.dec.out.map (·.nbPackets))) = some (2, [2, 2]) := by
  revert dbg; decide +kernel

end Netcode
