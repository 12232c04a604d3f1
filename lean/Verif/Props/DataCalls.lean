import Verif.Proofs.DataCalls
import Verif.Proofs.DecAny
import Verif.Props.System

/-!
# C77: data handlers that call the library
-/

set_option linter.unusedSectionVars false

namespace Netcode

variable {w : Nat}

/-! ## Acks and settings -/

/-- **C77, in part.** For any packets, from any sender: a data handler that asks for acks and changes settings changes nothing but
acks.  All calls return or throw the same, the same data are handed over in the same order, and the decoder ends in the same
state. Missing: handlers that give packets to the decoder. -/
theorem C77_same_partial (gf : GF w) (dbg : Bool) (clk : Clock) (io : Bool) (H : Nat → List DCall) (hH : CallsOk H) (ps : List (List Byte)) :
    (∀ f, NDec.feed (NDec.notify gf dbg clk) (NDec.init clk io) ps = .error f →
      NDec.feed (NDec.notifyC gf dbg clk H) (NDec.init clk io) ps = .error f) ∧
    ∀ d rs, NDec.feed (NDec.notify gf dbg clk) (NDec.init clk io) ps = .ok (d, rs) →
      ∃ e, NDec.feed (NDec.notifyC gf dbg clk H) (NDec.init clk io) ps = .ok (e, rs) ∧
        e.data = d.data ∧ e.det = d.det ∧ e.nbRepairs = d.nbRepairs ∧ e.nbSources = d.nbSources := by
  have key : ∀ (ps : List (List Byte)) (d e : NDec), ButAcks d e →
      (∀ f, NDec.feed (NDec.notify gf dbg clk) d ps = .error f → NDec.feed (NDec.notifyC gf dbg clk H) e ps = .error f) ∧
      ∀ d' rs, NDec.feed (NDec.notify gf dbg clk) d ps = .ok (d', rs) →
        ∃ e', NDec.feed (NDec.notifyC gf dbg clk H) e ps = .ok (e', rs) ∧ ButAcks d' e' := by
    intro ps
    induction ps with
    | nil =>
      intro d e h
      refine ⟨fun f hf => (by cases hf), fun d' rs hd => ?_⟩
      cases hd
      exact ⟨e, rfl, h⟩
    | cons p t ih =>
      intro d e h
      obtain ⟨k1, k2⟩ := notifyC_frame gf (dbg := dbg) clk hH d e h p
      unfold NDec.feed
      cases hn : d.notify gf dbg clk p with
      | error f =>
        rw [k1 f hn]
        exact ⟨fun g hg => hg, fun d' rs hd => by cases hd⟩
      | ok x =>
        obtain ⟨d1, r⟩ := x
        obtain ⟨e1, g1, g2, -⟩ := k2 d1 r hn
        rw [g1]
        obtain ⟨i1, i2⟩ := ih d1 e1 g2
        simp only [bind, Except.bind]
        cases hf : NDec.feed (NDec.notify gf dbg clk) d1 t with
        | error f => rw [i1 f hf]; exact ⟨fun g hg => hg, fun d' rs hd => by cases hd⟩
        | ok y =>
          obtain ⟨d2, rs2⟩ := y
          obtain ⟨e2, j1, j2⟩ := i2 d2 rs2 hf
          rw [j1]
          refine ⟨fun g hg => (by cases hg), fun d' rs hd => ?_⟩
          cases hd
          exact ⟨e2, rfl, j2⟩
  obtain ⟨k1, k2⟩ := key ps _ _ (ButAcks.refl (NDec.init clk io))
  refine ⟨k1, fun d rs h => ?_⟩
  obtain ⟨e, h1, h2⟩ := k2 d rs h
  exact ⟨e, h1, h2.data, h2.det, h2.repairs, h2.sources⟩

/-- **C77, in part.** An encoder and a decoder with such a handler, whose acks reach the encoder: what is handed over was committed,
each datum at most once, in order if asked for; and acks list sources that were committed, and without ordering
only ones the decoder knows. -/
theorem C77_system_partial {c : Cfg w} (hc : c.Ok) {late io : Bool} {s : Sys} (h : ReachC c late io s) :
    (∀ ev ∈ s.dec.det.log, s.committed[ev.id]? = some ev.data) ∧ s.dec.data = s.dec.det.log.map (·.data) ∧
      s.dec.det.handed.Nodup ∧ (io = true → s.dec.data.Sublist s.committed) ∧
      ∀ a ∈ s.dec.out, ∀ x ∈ a.ids, x < s.committed.length ∧ (io = false → s.dec.det.Knows x) := by
  have := fact_of_valid hc.width
  have hG := ginv_of_C hc h (comData s) (comData_agree s)
  cases io with
  | false =>
    obtain ⟨ems, A, ρ, L, W, K, hI⟩ := hG
    refine ⟨fun ev hev => ?_, hI.dataLog, hI.handed_nodup, fun h0 => (by cases h0), fun a ha x hx => ?_⟩
    · have h1 := hI.dinv.log.logData ev hev
      have h2 : ev.id < s.committed.length := hI.handed_lt (List.mem_map_of_mem hev)
      rw [h1, List.getElem?_eq_getElem h2]
      unfold comData
      rw [List.getD_eq_getElem?_getD, List.getElem?_eq_getElem h2]
      rfl
    · have hx := (hI.acks.out a ha).2.1 x hx
      exact ⟨hI.knownLt x hx, fun _ => (hI.knows_iff x).2 hx⟩
  | true =>
    obtain ⟨ems, A, ρ, L, W, K, u, hI⟩ := hG
    refine ⟨fun ev hev => ?_, hI.dataLog, hI.ord.logSorted.imp (fun h => Nat.ne_of_lt h), fun _ => hI.sublist rfl, fun a ha x hx => ?_⟩
    · have h1 := hI.logData ev hev
      have h2 : ev.id < s.committed.length := hI.handed_lt (List.mem_map_of_mem hev)
      rw [h1, List.getElem?_eq_getElem h2]
      unfold comData
      rw [List.getD_eq_getElem?_getD, List.getElem?_eq_getElem h2]
      rfl
    · have hx := (hI.inv.acks.out a ha).2.1 x hx
      exact ⟨hI.inv.knownLt x hx, fun h0 => by cases h0⟩

/-- **C77, in part.** No call throws, asserts or has undefined behaviour. -/
theorem C77_no_fault_partial {c : Cfg w} (hc : c.Ok) {late io : Bool} {s : Sys} (h : ReachC c late io s) {a : Act} (ha : Permits c late s a)
    {H : Nat → List DCall} (hH : CallsOk H) : ∃ s', s.stepC c H a = .ok s' ∧ s'.errs = 0 := by
  have := fact_of_valid hc.width
  have hag : Agree (fun x => if x = s.committed.length then (match a with | .commit d => d | _ => []) else comData s x) s.committed := by
    intro x d hx
    have hlt := getElem?_lt hx
    show (if x = s.committed.length then _ else _) = d
    rw [if_neg (Nat.ne_of_lt hlt)]
    exact comData_agree s x d hx
  obtain ⟨s', h1, h2⟩ := (ginv_of_C hc h _ hag).stepC hc hag a ha.toLate (by rintro d rfl; simp) hH
  exact ⟨s', h1, h2.errs⟩

/-- A run of such a system. -/
def runC (c : Cfg w) (H : Nat → List DCall) : Sys → List Act → Option Sys
  | s, [] => some s
  | s, a :: t =>
    if allowedB c s a then
      match s.stepC c H a with
      | .ok s' => runC c H s' t
      | .error _ => none
    else none

theorem runC_reach {c : Cfg w} {H : Nat → List DCall} (hH : CallsOk H) {io : Bool} {acts : List Act} {s s' : Sys} (h : ReachC c false io s)
    (hr : runC c H s acts = some s') : ReachC c false io s' := by
  induction acts generalizing s with
  | nil => cases hr; exact h
  | cons a t ih =>
    unfold runC at hr
    split at hr
    · rename_i ha
      split at hr
      · rename_i s1 h1
        exact ih (h.step (a := a) (allowed_of_B ha) hH h1) hr
      · cases hr
    · cases hr

/-- A handler that asks for an ack with each datum, and for more of them from the second one on. -/
def demoCalls (n : Nat) : List DCall := if n = 0 then [.genAck] else [.setAckNb 2, .setAckPeriod 0, .maybeAck, .genAck]

theorem demoCalls_ok : CallsOk demoCalls := by
  intro n x hx
  unfold demoCalls at hx
  split at hx <;> simp at hx <;> rcases hx with rfl | rfl | rfl | rfl <;> simp [DCall.Ok]

/-- Source 1 is lost and recovered; the acks the handler asked for reach the encoder. -/
def demoCallsActs : List Act :=
  [.setRate 3, .commit [1, 2], .commit [3], .commit [4, 5, 6], .deliver 0, .deliver 2, .ack 0, .ack 1, .deliver 3, .ack 2, .commit [7], .deliver 4]

@[irreducible] def callsReached (c : Cfg w) (io : Bool) (H : Nat → List DCall) (acts : List Act) : Sys :=
  (runC c H (Sys.init c.clk io) acts).getD (Sys.init c.clk io)

theorem callsReached_reach {c : Cfg w} {io : Bool} {H : Nat → List DCall} (hH : CallsOk H) {acts : List Act}
    (h : (runC c H (Sys.init c.clk io) acts).isSome = true) : ReachC c false io (callsReached c io H acts) := by
  obtain ⟨s, hs⟩ := Option.isSome_iff_exists.1 h
  unfold callsReached
  rw [hs]
  exact runC_reach hH .init hs

/-- Four data are handed over and four acks sent; none lists the datum that the handler was given last. The encoder has forgotten sources 0 and 2, as told by acks of the handler. -/
example (dbg io : Bool) : ReachC (cfg8 dbg) false io (callsReached (cfg8 dbg) io demoCalls demoCallsActs) :=
  callsReached_reach demoCalls_ok (by revert dbg io; decide +kernel)
example : (callsReached (cfg8 true) false demoCalls demoCallsActs).dec.det.handed = [0, 2, 1, 3] ∧
    (callsReached (cfg8 true) false demoCalls demoCallsActs).dec.out.map (·.ids) = [[], [0], [0, 2], [0, 1, 2]] ∧
    (callsReached (cfg8 true) false demoCalls demoCallsActs).enc.sources.map (·.id) = [1, 3] := by decide +kernel

/-! ## Packets -/

theorem fuel_pos (s : Dec) : s.fuel - 1 + 1 = s.fuel := by
  have : 0 < s.fuel := Nat.mul_pos (by omega) (by omega)
  omega

theorem SameB.fuel {s s' : Dec} (h : SameB s s') : s'.fuel = s.fuel := by
  unfold Dec.fuel
  rw [h.repairs, h.missing]

/-- The model of a handler that gives no packets is the model of `Model/Decoder.lean`. -/
theorem C77_model (gf : GF w) (dbg : Bool) (s : Dec) (src : DSource) : s.onSourceN gf dbg src .ok = s.onSource gf dbg src := by
  unfold Dec.onSourceN Dec.onSource
  split
  · rfl
  · split
    · rfl
    · have hg : s.giveNewN dbg src .ok = s.giveNew dbg src := rfl
      rw [hg, ← fuel_pos s]
      simp only [addSource, addSourceHead]
      cases h : s.giveNew dbg src with
      | error f => rfl
      | ok s1 =>
        have hs : s1.fuel = s.fuel := by
          unfold Dec.giveNew at h
          split at h
          · cases h; rfl
          · split at h
            · exact (flush_same h).fuel
            · cases h; rfl
        unfold Dec.removeNew
        simp only [bind, Except.bind, hs]
        cases hm : s1.missing.get? src.id with
        | none =>
          simp only [pure, Except.pure]
          cases scanMissing gf dbg (s.fuel - 1) s1.missing.keys.head? s1 <;> rfl
        | some links =>
          simp only
          cases removeFromAll gf dbg src links s1 with
          | error f => rfl
          | ok s2 =>
            simp only [pure, Except.pure]
            split <;> rfl

/-- A new source, when nothing else is going on. -/
theorem onSource_bare (gf : GF w) (dbg : Bool) (s : Dec) (src : DSource) (hio : s.inOrder = false) (hr : s.repairs = []) (hm : s.missing = [])
    (hl : ¬ s.lastId.any (fun l => decide (src.id < l))) (hn : s.sources.has src.id = false) :
    s.onSource gf dbg src = .ok { s.callback src with sources := s.sources.emplace src.id src } := by
  have hf : s.fuel = 6 := by unfold Dec.fuel; rw [hr, hm]; rfl
  unfold Dec.onSource
  rw [if_neg hl, if_neg (by rw [hn]; decide), hf]
  simp [addSource, addSourceHead, Dec.giveNew, hio, Dec.callback, hm, OMap.get?, OMap.keys, scanMissing, addSourceTail, cassert, hn,
    Dec.fullDecode, hr, bind, Except.bind, pure, Except.pure]

/-- **C77** is false of packets: a data handler that gives the decoder the packet whose datum it is given (a copy of it that arrived
meanwhile, say) is given the datum again; with assertions the program then stops. -/
theorem C77_false_again (gf : GF w) (dbg : Bool) (s : Dec) (src : DSource) (hio : s.inOrder = false) (hr : s.repairs = []) (hm : s.missing = [])
    (hl : ¬ s.lastId.any (fun l => decide (src.id < l))) (hn : s.sources.has src.id = false) :
    match dbg with
    | true => s.onSourceN gf true src (fun s => s.onSource gf true src) = .error .assertion
    | false => ∃ s', s.onSourceN gf false src (fun s => s.onSource gf false src) = .ok s' ∧
        s'.handed = s.handed ++ [src.id, src.id] ∧ s'.log.map (·.data) = s.log.map (·.data) ++ [src.sym, src.sym] := by
  have h2 : ∀ dbg, (s.callback src).onSource gf dbg src = .ok { (s.callback src).callback src with sources := s.sources.emplace src.id src } :=
    fun dbg => onSource_bare gf dbg (s.callback src) src hio hr hm hl hn
  have hg : ∀ dbg, s.giveNewN dbg src (fun s => s.onSource gf dbg src) =
      .ok { (s.callback src).callback src with sources := s.sources.emplace src.id src } := by
    intro dbg
    rw [← h2 dbg]
    unfold Dec.giveNewN
    rw [hio]
    rfl
  have hh : (s.sources.emplace src.id src).has src.id = true :=
    (OMap.has_iff _ _).2 ((OMap.mem_keys_emplace _ _ _ _).2 (Or.inl rfl))
  cases dbg with
  | true =>
    show s.onSourceN gf true src (fun s => s.onSource gf true src) = .error .assertion
    unfold Dec.onSourceN
    rw [if_neg hl, if_neg (by rw [hn]; decide), hg]
    simp [Dec.removeNew, Dec.callback, hm, OMap.get?, OMap.keys, scanMissing, addSourceTail, cassert, hh, bind, Except.bind, pure, Except.pure]
  | false =>
    refine ⟨{ (s.callback src).callback src with sources := (s.sources.emplace src.id src).emplace src.id src }, ?_, ?_⟩
    · unfold Dec.onSourceN
      rw [if_neg hl, if_neg (by rw [hn]; decide), hg]
      simp [Dec.removeNew, Dec.callback, hm, hr, hio, OMap.get?, OMap.keys, scanMissing, addSourceTail, cassert, hh, bind, Except.bind, pure,
        Except.pure, Dec.fullDecode]
    · simp [Dec.handed, Dec.callback]

/-- **C77** is false of other packets as well: sources 0 and 1 are lost and a repair of both is held; source 0 arrives, and the handler,
given it, gives the decoder source 1. The decoder then decodes source 0 from the repair and hands it over again. -/
theorem C77_false_other (dbg : Bool) : ∃ s : Dec, s = (reached (cfg8 dbg) false [.setRate 1000, .commit [1], .commit [2], .repair, .deliver 2]).dec.det ∧
    faultOf (s.onSourceN gf8 true ⟨0, [1]⟩ (fun s => s.onSource gf8 true ⟨1, [2]⟩)) = some .assertion ∧
    (s.onSourceN gf8 false ⟨0, [1]⟩ (fun s => s.onSource gf8 false ⟨1, [2]⟩)).toOption.map Dec.handed = some [0, 1, 0] := by
  refine ⟨_, rfl, ?_⟩
  revert dbg; decide +kernel

/-- The two sources one after the other. -/
example : (do
    let s ← (reached (cfg8 true) false [.setRate 1000, .commit [1], .commit [2], .repair, .deliver 2]).dec.det.onSource gf8 true ⟨0, [1]⟩
    s.onSource gf8 true ⟨1, [2]⟩ : Out Dec).toOption.map Dec.handed = some [0, 1] := by decide +kernel

/-- The hypotheses of `C77_false_again`: a new decoder, any source. -/
example (gf : GF w) (src : DSource) : ∃ s', (Dec.init false).onSourceN gf false src (fun s => s.onSource gf false src) = .ok s' ∧
    s'.handed = [src.id, src.id] := by
  obtain ⟨s', h1, h2, -⟩ := C77_false_again gf false (Dec.init false) src rfl rfl rfl (by simp [Dec.init]) rfl
  exact ⟨s', h1, h2⟩

end Netcode
