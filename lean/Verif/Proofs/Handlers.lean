import Verif.Model.Handlers
import Verif.Spec.Handlers
import Verif.Proofs.DecFrame
import Verif.Proofs.DecLow

/-!
# Handlers that throw

Up to the exception, the decoder does what it does with a handler that does not throw.
-/

namespace Netcode

open OMap

variable {w : Nat}

/-- A run with a handler that may throw, next to the run with one that does not: the same, or interrupted after some of the
callbacks; `io` tells whether the program may be terminated. -/
inductive Cut (H : DHandler) (io : Bool) : XOut Dec → Out Dec → Prop
  | same (y : Out Dec) : Cut H io (Out.x y) y
  | thrown (s : Dec) (y : Out Dec) : H (s.log.length - 1) = true → s.log ≠ [] → (∀ s', y = .ok s' → s.log <+: s'.log) →
      Cut H io (.error (.thrown s)) y
  | terminate (y : Out Dec) : (∃ k, H k = true) → io = true → Cut H io (.error .terminate) y

theorem x_ok {α : Type} (a : α) : Out.x (.ok a : Out α) = .ok a := rfl

theorem Cut.ok (H : DHandler) {io : Bool} (s : Dec) : Cut H io (.ok s) (.ok s) := Cut.same (.ok s)

theorem Cut.fault (H : DHandler) {io : Bool} (f : Fault) : Cut H io (.error (.fault f)) (.error f) := Cut.same (.error f)

/-- Both runs go on. -/
theorem Cut.bind {H : DHandler} {io : Bool} {x : XOut Dec} {y : Out Dec} {f : Dec → XOut Dec} {g : Dec → Out Dec} (h : Cut H io x y)
    (hf : ∀ s, y = .ok s → Cut H io (f s) (g s)) (hg : ∀ s s', g s = .ok s' → s.log <+: s'.log) : Cut H io (x >>= f) (y >>= g) := by
  cases h with
  | same y =>
    cases y with
    | ok s => exact hf s rfl
    | error e => exact Cut.same (.error e)
  | thrown s y h1 h2 h3 =>
    refine Cut.thrown s _ h1 h2 ?_
    intro s' hs
    obtain ⟨s1, hy, hs⟩ := bind_ok_iff.1 hs
    exact (h3 s1 hy).trans (hg _ _ hs)
  | terminate y hk hi => exact Cut.terminate _ hk hi

/-- Both do something that does not call the handler. -/
theorem Cut.pre {α : Type} {H : DHandler} {io : Bool} {y : Out α} {f : α → XOut Dec} {g : α → Out Dec}
    (hf : ∀ a, y = .ok a → Cut H io (f a) (g a)) : Cut H io (Out.x y >>= f) (y >>= g) := by
  cases y with
  | ok a => exact hf a rfl
  | error e => exact Cut.same (.error e)

theorem Cut.noexcept {H : DHandler} {x : XOut Dec} {y : Out Dec} (h : Cut H true x y) : Cut H true (noexcept x) y := by
  cases h with
  | same y => cases y with
    | ok s => exact Cut.same (.ok s)
    | error e => exact Cut.same (.error e)
  | thrown s y h1 => exact Cut.terminate _ ⟨_, h1⟩ rfl
  | terminate y hk hi => exact Cut.terminate _ hk hi

variable (H : DHandler) {io : Bool}

theorem callback_cut (s : Dec) (src : DSource) : Cut H io (s.callbackH H src) (.ok (s.callback src)) := by
  unfold Dec.callbackH
  split
  · rename_i h
    refine Cut.thrown _ _ (by simpa [Dec.callback] using h) (by simp [Dec.callback]) ?_
    intro s' hs; cases hs; exact List.prefix_refl _
  · exact Cut.ok H _

theorem callbackOrdered_cut (s : Dec) (id : Nat) : Cut H io (s.callbackOrderedH H id) (s.callbackOrdered id) := by
  unfold Dec.callbackOrderedH Dec.callbackOrdered
  cases s.sources.get? id with
  | none => exact Cut.fault H _
  | some src => exact callback_cut H _ _

theorem flushLoop_log {dbg : Bool} {l : List Nat} {s s' : Dec} (h : flushLoop dbg l s = .ok s') : s.log <+: s'.log :=
  (flushLoop_ext dbg l s s' h).log

theorem flushLoop_cut (dbg : Bool) (l : List Nat) (s : Dec) : Cut H io (flushLoopH H dbg l s) (flushLoop dbg l s) := by
  induction l generalizing s with
  | nil => exact Cut.ok H _
  | cons id rest ih =>
    unfold flushLoopH flushLoop
    refine Cut.pre fun _ _ => Cut.bind (callbackOrdered_cut H s id) (fun s1 _ => ?_) (fun s1 s' h => ?_)
    · cases rest with
      | nil => exact Cut.ok H _
      | cons nxt t =>
        simp only
        split
        · exact Cut.ok H _
        · exact ih _
    · cases rest with
      | nil => cases h; exact List.prefix_refl _
      | cons nxt t =>
        simp only at h
        split at h
        · cases h; exact List.prefix_refl _
        · exact (flushLoop_log h : _)

theorem flush_cut (dbg : Bool) (s : Dec) : Cut H io (s.flushH H dbg) (s.flush dbg) := by
  unfold Dec.flushH Dec.flush
  split
  · exact flushLoop_cut H dbg _ _
  · exact Cut.ok H _

theorem giveNew_cut (dbg : Bool) (src : DSource) (s : Dec) : Cut H io (s.giveNewH H dbg src) (s.giveNew dbg src) := by
  unfold Dec.giveNewH Dec.giveNew
  split
  · exact callback_cut H _ _
  · split
    · have h := Cut.bind (io := io) (callback_cut H s src)
        (f := fun s => Dec.flushH H dbg { s with firstMissing := (s.firstMissing + 1) % 2 ^ 32 })
        (g := fun s => Dec.flush dbg { s with firstMissing := (s.firstMissing + 1) % 2 ^ 32 })
        (fun s1 _ => flush_cut H dbg _) (fun s1 s' h => (flush_ext h).log)
      exact h
    · exact Cut.ok H _

theorem addSourceHead_cut (gf : GF w) (dbg : Bool) (src : DSource) (s : Dec) :
    Cut H io (addSourceHeadH gf H dbg src s) (addSourceHead gf dbg src s) := by
  unfold addSourceHeadH addSourceHead
  refine Cut.bind (giveNew_cut H dbg src s) (fun s1 _ => ?_) (fun s1 s' h => ?_)
  · cases s1.missing.get? src.id with
    | none => exact Cut.ok H _
    | some links => exact Cut.pre fun _ _ => Cut.ok H _
  · split at h
    · cases h; exact List.prefix_refl _
    · obtain ⟨s2, h2, h⟩ := bind_ok_iff.1 h
      cases h
      exact (removeFromAll_ext _ _ _ _ _ _ h2).log

theorem add_scan_cut (gf : GF w) (dbg : Bool) (fuel : Nat) :
    (∀ src s, Cut H io (addSourceH gf H dbg fuel src s) (addSource gf dbg fuel src s)) ∧
    (∀ k s, Cut H io (scanMissingH gf H dbg fuel k s) (scanMissing gf dbg fuel k s)) := by
  induction fuel with
  | zero =>
    constructor
    · intro src s; unfold addSourceH addSource; exact Cut.fault H _
    · intro k s
      unfold scanMissingH scanMissing
      cases k with
      | none => exact Cut.ok H _
      | some k => exact Cut.fault H _
  | succ fuel ih =>
    constructor
    · intro src s
      unfold addSourceH addSource
      refine Cut.bind (addSourceHead_cut H gf dbg src s) (fun s1 _ => ?_) (fun s1 s' h => ?_)
      · refine Cut.bind (ih.2 _ _) (fun s2 _ => Cut.same _) (fun s2 s' h => ?_)
        exact (addSourceTail_ext h).log
      · obtain ⟨s2, h2, h⟩ := bind_ok_iff.1 h
        have e := (add_scan_ext gf dbg fuel).2 _ _ _ h2
        exact e.log.trans (addSourceTail_ext h).log
    · intro k s
      cases k with
      | none => unfold scanMissingH scanMissing; exact Cut.ok H _
      | some k =>
        unfold scanMissingH scanMissing
        cases s.missing.get? k with
        | none => exact Cut.fault H _
        | some l =>
          rcases l with _ | ⟨rid, _ | ⟨_, _⟩⟩
          · exact ih.2 _ _
          · simp only
            cases s.repairs.get? rid with
            | none => exact Cut.fault H _
            | some r =>
              simp only
              split
              · refine Cut.pre fun _ _ => Cut.pre fun _ _ => Cut.pre fun src _ => ?_
                refine Cut.bind (ih.1 _ _) (fun s2 _ => ih.2 _ _) (fun s2 s' h => ?_)
                have e := (add_scan_ext gf dbg fuel).2 _ _ _ h
                exact e.log
              · exact ih.2 _ _
          · exact ih.2 _ _

theorem giveOutdated_cut (l : List Nat) (s : Dec) : Cut H io (giveOutdatedH H l s) (giveOutdated l s) := by
  induction l generalizing s with
  | nil => exact Cut.ok H _
  | cons k t ih =>
    unfold giveOutdatedH giveOutdated
    exact Cut.bind (callbackOrdered_cut H s k) (fun s1 _ => ih _) (fun s1 s' h => (giveOutdated_ext _ _ _ h).log)

theorem giveAllOutdated_cut (dbg : Bool) (id : Nat) (s : Dec) : Cut H io (s.giveAllOutdatedH H dbg id) (s.giveAllOutdated dbg id) := by
  unfold Dec.giveAllOutdatedH Dec.giveAllOutdated
  split
  · exact Cut.bind (giveOutdated_cut H _ s) (fun s1 _ => flush_cut H dbg _) (fun s1 s' h => (flush_ext h).log)
  · exact Cut.ok H _

theorem dropOutdated_cut (dbg : Bool) (id : Nat) (s : Dec) :
    Cut H s.inOrder (s.dropOutdatedH H dbg id) (s.dropOutdated dbg id) := by
  cases hio : s.inOrder with
  | false =>
    have : s.dropOutdatedH H dbg id = (s.dropOutdated dbg id).x := by
      unfold Dec.dropOutdatedH Dec.dropOutdated
      simp only
      cases hd : dropRepairs dbg id s.repairs { s with lastId := some id } with
      | error f => rfl
      | ok s1 =>
        have h1 : s1.inOrder = false := (dropRepairs_ext _ _ _ _ _ hd).inOrder.trans hio
        have e1 : s1.giveAllOutdatedH H dbg id = .ok s1 := by unfold Dec.giveAllOutdatedH; rw [h1]; rfl
        have e2 : s1.giveAllOutdated dbg id = .ok s1 := by unfold Dec.giveAllOutdated; rw [h1]; rfl
        simp only [Out.x, bind, Except.bind, e1, e2]
        rfl
    rw [this]
    exact Cut.same _
  | true =>
  unfold Dec.dropOutdatedH Dec.dropOutdated
  refine Cut.noexcept (Cut.pre fun s1 _ => Cut.bind (giveAllOutdated_cut H dbg id s1) (fun s2 _ => Cut.ok H _) (fun s2 s' h => ?_))
  cases h; exact List.prefix_refl _

theorem giveDecoded_cut (dbg : Bool) (src : DSource) (s : Dec) : Cut H io (s.giveDecodedH H dbg src) (s.giveDecoded dbg src) := by
  unfold Dec.giveDecodedH Dec.giveDecoded
  split
  · exact callback_cut H _ _
  · split
    · have h := Cut.bind (io := io) (callback_cut H s src)
        (f := fun s => Dec.flushH H dbg { s with firstMissing := (s.firstMissing + 1) % 2 ^ 32 })
        (g := fun s => Dec.flush dbg { s with firstMissing := (s.firstMissing + 1) % 2 ^ 32 })
        (fun s1 _ => flush_cut H dbg _) (fun s1 s' h => (flush_ext h).log)
      exact h
    · exact Cut.ok H _

theorem insertDecoded_cut (dbg : Bool) (src : DSource) (s : Dec) :
    Cut H io (s.insertDecodedH H dbg src) (s.insertDecoded dbg src) := by
  unfold Dec.insertDecodedH Dec.insertDecoded
  refine Cut.pre fun _ _ => ?_
  simp only
  cases (s.sources.emplace src.id src).get? src.id with
  | none => exact Cut.fault H _
  | some src => exact giveDecoded_cut H dbg _ _

theorem decodeLoop_cut (gf : GF w) (dbg : Bool) (inv : Mat w) (reps : List DRepair) (l : List Nat) (col : Nat) (s : Dec) :
    Cut H io (decodeLoopH gf H dbg inv reps col l s) (decodeLoop gf dbg inv reps col l s) := by
  induction l generalizing s col with
  | nil => exact Cut.ok H _
  | cons x t ih =>
    unfold decodeLoopH decodeLoop
    refine Cut.pre fun _ _ => Cut.bind (insertDecoded_cut H dbg _ s) (fun s1 _ => ih _ _) (fun s1 s' h => ?_)
    exact (decodeLoop_ext _ _ _ _ _ _ _ _ h).log

theorem fullDecode_cut (gf : GF w) (dbg : Bool) (s : Dec) : Cut H io (s.fullDecodeH gf H dbg) (s.fullDecode gf dbg) := by
  unfold Dec.fullDecodeH Dec.fullDecode
  split
  · exact Cut.ok H _
  · split
    · exact Cut.ok H _
    · refine Cut.pre fun _ _ => Cut.pre fun _ _ => Cut.pre fun _ _ => ?_
      cases invert gf s.repairs.length (coeffMatrix w s.repairs s.missing) with
      | error c =>
        simp only
        cases s.repairs[c]? with
        | none => exact Cut.fault H _
        | some p => exact Cut.pre fun _ _ => Cut.ok H _
      | ok inv =>
        refine Cut.bind (decodeLoop_cut H gf dbg _ _ _ _ s) (fun s1 _ => Cut.ok H _) (fun s1 s' h => ?_)
        cases h; exact List.prefix_refl _

theorem onSource_cut (gf : GF w) (dbg : Bool) (s : Dec) (src : DSource) :
    Cut H io (s.onSourceH gf H dbg src) (s.onSource gf dbg src) := by
  unfold Dec.onSourceH Dec.onSource
  split
  · exact Cut.ok H _
  · split
    · exact Cut.ok H _
    · exact Cut.bind ((add_scan_cut H gf dbg _).1 src s) (fun s1 _ => fullDecode_cut H gf dbg s1) (fun s1 s' h => (fullDecode_ext h).log)

theorem onRepair_cut (gf : GF w) (dbg : Bool) (s : Dec) (r : DRepair) :
    Cut H s.inOrder (s.onRepairH gf H dbg r) (s.onRepair gf dbg r) := by
  unfold Dec.onRepairH Dec.onRepair
  refine Cut.pre fun _ _ => ?_
  rcases r.ids.getLast? with _ | lastIn <;> rcases r.ids.head? with _ | firstIn
  · exact Cut.fault H _
  · exact Cut.fault H _
  · exact Cut.fault H _
  · simp only
    split
    · exact Cut.ok H _
    · split
      · exact Cut.ok H _
      · refine Cut.bind (dropOutdated_cut H dbg _ s) (fun s1 _ => ?_) (fun s1 s' h => ?_)
        · split
          · exact Cut.ok H _
          · refine Cut.pre fun _ _ => ?_
            refine Cut.pre fun x _ => ?_
            obtain ⟨r', missing⟩ := x
            refine Cut.pre fun _ _ => ?_
            simp only
            split
            · exact Cut.pre fun src _ => (add_scan_cut H gf dbg _).1 _ _
            · exact fullDecode_cut H gf dbg _
        · split at h
          · cases h; exact List.prefix_refl _
          · obtain ⟨_, _, h⟩ := bind_ok_iff.1 h
            obtain ⟨x, _, h⟩ := bind_ok_iff.1 h
            obtain ⟨r', missing⟩ := x
            obtain ⟨_, _, h⟩ := bind_ok_iff.1 h
            simp only at h
            split at h
            · obtain ⟨src, _, h⟩ := bind_ok_iff.1 h
              have e := (add_scan_ext gf dbg _).1 _ _ _ h
              exact e.log
            · exact (fullDecode_ext h : Ext 0 _ _).log

/-! ## ntc::decoder -/

theorem maybeAck_out (clk : Clock) (d : NDec) (held : List Nat) : d.out <+: (d.maybeAckWith clk held).out := by
  unfold NDec.maybeAckWith
  split
  · exact List.prefix_append _ _
  · split
    · simp only
      split
      · exact List.prefix_append _ _
      · exact List.prefix_refl _
    · exact List.prefix_refl _

theorem maybeAck_data (clk : Clock) (d : NDec) (held : List Nat) : (d.maybeAckWith clk held).data = d.data := by
  unfold NDec.maybeAckWith
  split
  · rfl
  · split
    · simp only
      split <;> rfl
    · rfl

theorem handle_out (clk : Clock) (d : NDec) (ev : Event) : d.out <+: (d.handleSource clk ev).out :=
  maybeAck_out clk { d with data := d.data ++ [ev.data] } _

theorem handle_data (clk : Clock) (d : NDec) (ev : Event) : (d.handleSource clk ev).data = d.data ++ [ev.data] :=
  maybeAck_data clk { d with data := d.data ++ [ev.data] } _

theorem foldHandle_out (clk : Clock) (l : List Event) (d : NDec) : d.out <+: (l.foldl (NDec.handleSource clk) d).out := by
  induction l generalizing d with
  | nil => exact List.prefix_refl _
  | cons ev t ih => exact (handle_out clk d ev).trans (ih _)

theorem foldHandle_data (clk : Clock) (l : List Event) (d : NDec) :
    (l.foldl (NDec.handleSource clk) d).data = d.data ++ l.map (·.data) := by
  induction l generalizing d with
  | nil => simp
  | cons ev t ih => rw [List.foldl_cons, ih, handle_data]; simp

theorem dropLast_getLast? {α : Type} (l : List α) : l.dropLast ++ l.getLast?.toList = l := by
  rcases List.eq_nil_or_concat l with rfl | ⟨t, a, rfl⟩
  · rfl
  · simp

theorem foldHandle_det (clk : Clock) (l : List Event) (d : NDec) (det : Dec) :
    l.foldl (NDec.handleSource clk) { d with det := det } = { l.foldl (NDec.handleSource clk) d with det := det } := by
  induction l generalizing d with
  | nil => rfl
  | cons ev t ih =>
    rw [List.foldl_cons, List.foldl_cons, ← ih]
    congr 1
    unfold NDec.handleSource NDec.maybeAckWith
    simp only
    split
    · rfl
    · split
      · split <;> rfl
      · rfl

/-- What the user sees of a decoder whose handler threw is the beginning of what they would have seen. -/
theorem afterDet_cut {clk : Clock} {d : NDec} {n : Nat} {x : XOut Dec} {y : Dec} (hc : Cut H io x (.ok y)) {d' : NDec} {r : HRes}
    (h : d.afterDetH clk n x = .ok (d', r)) :
    (r = .read n ∧ d' = d.afterDet clk y) ∨
    (r = .user ∧ d'.data <+: (d.afterDet clk y).data ∧ d'.out <+: (d.afterDet clk y).out ∧
      ∃ k, H k = true ∧ k + 1 = d'.det.log.length) := by
  unfold NDec.afterDetH at h
  cases hc with
  | same =>
    cases h
    exact Or.inl ⟨rfl, rfl⟩
  | terminate _ hk => cases h
  | thrown s _ h1 h2 h3 =>
    cases h
    refine Or.inr ⟨rfl, ?_, ?_, s.log.length - 1, h1, ?_⟩
    · unfold NDec.afterDet
      simp only [foldHandle_data, List.append_assoc, ← List.map_append, dropLast_getLast?]
      obtain ⟨t, ht⟩ := h3 y rfl
      rw [← ht, List.prefix_append_right_inj]
      exact ((List.prefix_append s.log t).drop _).map _
    · unfold NDec.afterDet
      simp only [foldHandle_det]
      obtain ⟨t, ht⟩ := h3 y rfl
      have hp : (s.log.drop d.det.log.length).dropLast <+: y.log.drop d.det.log.length :=
        (List.dropLast_prefix _).trans (by rw [← ht]; exact (List.prefix_append s.log t).drop _)
      obtain ⟨u, hu⟩ := hp
      rw [← hu, List.foldl_append]
      exact foldHandle_out _ _ _
    · simp only [foldHandle_det]
      have := List.length_pos_iff.2 h2
      omega

/-- The same for a call. -/
theorem notify_cut {gf : GF w} {dbg : Bool} {clk : Clock} {d d' d'' : NDec} {p : List Byte} {r : HRes} {o : Except CppErr Nat}
    (h : d.notifyH gf H dbg clk p = .ok (d', r)) (h' : d.notify gf dbg clk p = .ok (d'', o)) :
    (d' = d'' ∧ r = (match o with | .ok n => .read n | .error x => .cpp x)) ∨
    (r = .user ∧ d'.data <+: d''.data ∧ d'.out <+: d''.out ∧ ∃ k, H k = true ∧ k + 1 = d'.det.log.length) := by
  unfold NDec.notifyH at h
  unfold NDec.notify at h'
  obtain ⟨_, h0, h'⟩ := bind_ok_iff.1 h'
  rw [h0] at h
  simp only at h
  cases ht : getPacketType p with
  | error e =>
    rw [ht] at h h'
    cases e with
    | fault f => cases h
    | cpp x => cases h; cases h'; exact Or.inl ⟨rfl, rfl⟩
  | ok ty =>
    rw [ht] at h h'
    cases ty with
    | ack => cases h; cases h'; exact Or.inl ⟨rfl, rfl⟩
    | repair =>
      simp only at h h'
      cases hr : readRepair p with
      | error e =>
        rw [hr] at h h'
        cases e with
        | fault f => cases h
        | cpp x => cases h; cases h'; exact Or.inl ⟨rfl, rfl⟩
      | ok rn =>
        rw [hr] at h h'
        obtain ⟨r', n⟩ := rn
        obtain ⟨y, hy, h'⟩ := bind_ok_iff.1 h'
        cases h'
        have hcut := onRepair_cut H gf dbg d.det r'
        rw [hy] at hcut
        rcases afterDet_cut H hcut h with ⟨h1, h2⟩ | h1
        · exact Or.inl ⟨h2, h1⟩
        · exact Or.inr h1
    | source =>
      simp only at h h'
      cases hr : readSource p with
      | error e =>
        rw [hr] at h h'
        cases e with
        | fault f => cases h
        | cpp x => cases h; cases h'; exact Or.inl ⟨rfl, rfl⟩
      | ok rn =>
        rw [hr] at h h'
        obtain ⟨r', n⟩ := rn
        obtain ⟨y, hy, h'⟩ := bind_ok_iff.1 h'
        cases h'
        have hcut := onSource_cut (io := false) H gf dbg d.det r'
        rw [hy] at hcut
        rcases afterDet_cut H hcut h with ⟨h1, h2⟩ | h1
        · exact Or.inl ⟨h2, h1⟩
        · exact Or.inr h1

/-- A handler that never throws. -/
theorem cut_never {x : XOut Dec} {y : Out Dec} (h : Cut (fun _ => false) io x y) : x = y.x := by
  cases h with
  | same => rfl
  | thrown s y h1 => cases h1
  | terminate y hk => obtain ⟨k, hk⟩ := hk; cases hk

/-- The result of a call of a decoder, as the user sees it when no handler throws. -/
def resOf : Except CppErr Nat → HRes
  | .ok n => .read n
  | .error x => .cpp x

theorem notify_never (gf : GF w) (dbg : Bool) (clk : Clock) (d : NDec) (p : List Byte) :
    d.notifyH gf (fun _ => false) dbg clk p = Out.stop ((d.notify gf dbg clk p).map (fun x => (x.1, resOf x.2))) := by
  unfold NDec.notifyH NDec.notify
  cases cassert dbg (decide (p.length ≠ 0)) with
  | error f => rfl
  | ok _ =>
    simp only
    cases getPacketType p with
    | error e => cases e <;> rfl
    | ok ty =>
      cases ty with
      | ack => rfl
      | repair =>
        simp only
        cases readRepair p with
        | error e => cases e <;> rfl
        | ok rn =>
          obtain ⟨r', n⟩ := rn
          simp only [cut_never (onRepair_cut _ gf dbg d.det r')]
          cases d.det.onRepair gf dbg r' <;> rfl
      | source =>
        simp only
        cases readSource p with
        | error e => cases e <;> rfl
        | ok rn =>
          obtain ⟨r', n⟩ := rn
          simp only [cut_never (onSource_cut (io := false) _ gf dbg d.det r')]
          cases d.det.onSource gf dbg r' <;> rfl

/-! ## No termination without ordering -/

theorem notify_terminate {gf : GF w} {dbg : Bool} {clk : Clock} {d : NDec} {p : List Byte}
    (h : d.notifyH gf H dbg clk p = .error .terminate) : d.det.inOrder = true := by
  unfold NDec.notifyH at h
  cases h0 : cassert dbg (decide (p.length ≠ 0)) with
  | error f => rw [h0] at h; cases h
  | ok _ =>
    rw [h0] at h
    simp only at h
    cases ht : getPacketType p with
    | error e => rw [ht] at h; cases e <;> cases h
    | ok ty =>
      rw [ht] at h
      cases ty with
      | ack => cases h
      | repair =>
        simp only at h
        cases hr : readRepair p with
        | error e => rw [hr] at h; cases e <;> cases h
        | ok rn =>
          rw [hr] at h
          obtain ⟨r', n⟩ := rn
          simp only at h
          have hc := onRepair_cut H gf dbg d.det r'
          generalize d.det.onRepairH gf H dbg r' = x at h hc
          generalize d.det.onRepair gf dbg r' = y at hc
          cases hc with
          | same => cases y <;> cases h
          | thrown => cases h
          | terminate _ _ hi => exact hi
      | source =>
        simp only at h
        cases hr : readSource p with
        | error e => rw [hr] at h; cases e <;> cases h
        | ok rn =>
          rw [hr] at h
          obtain ⟨r', n⟩ := rn
          simp only at h
          have hc := onSource_cut H (io := d.det.inOrder) gf dbg d.det r'
          generalize d.det.onSourceH gf H dbg r' = x at h hc
          generalize d.det.onSource gf dbg r' = y at hc
          cases hc with
          | same => cases y <;> cases h
          | thrown => cases h
          | terminate _ _ hi => exact hi

/-! ## The call for a source that was just received -/

theorem onSource_untouched {gf : GF w} {dbg : Bool} {s : Dec} {src : DSource} (h1 : ¬ s.Outdated src.id) (h2 : ¬ s.Holds src.id)
    (h3 : s.inOrder = false ∨ src.id = s.firstMissing) (h4 : H s.log.length = true) :
    s.onSourceH gf H dbg src = .error (.thrown (s.callback src)) := by
  unfold Dec.onSourceH
  have e1 : s.lastId.any (fun l => decide (src.id < l)) = false := by
    cases hl : s.lastId with
    | none => rfl
    | some l =>
      have : ¬ src.id < l := fun hlt => h1 ⟨l, hl, hlt⟩
      simp [this]
  have e2 : s.sources.has src.id = false := by
    rw [Bool.eq_false_iff]
    intro hh
    exact h2 ((has_iff _ _).1 hh)
  have e4 : s.callbackH H src = .error (.thrown (s.callback src)) := by unfold Dec.callbackH; rw [h4]; rfl
  have e3 : s.giveNewH H dbg src = .error (.thrown (s.callback src)) := by
    unfold Dec.giveNewH
    rcases h3 with h3 | h3
    · rw [h3]; exact e4
    · split
      · exact e4
      · rw [e4]; rfl
  rw [e1, e2]
  simp only [Dec.fuel, Bool.false_eq_true, if_false]
  have : (s.repairs.length + 2) * (s.missing.length + 3) = (s.repairs.length + 2) * (s.missing.length + 3) - 1 + 1 := by
    have : 0 < (s.repairs.length + 2) * (s.missing.length + 3) := Nat.mul_pos (by omega) (by omega)
    omega
  rw [this]
  unfold addSourceH addSourceHeadH
  rw [e3]
  rfl

/-! ## The encoder -/

theorem generateRepairH_false (gf : GF w) (dbg : Bool) (e : Enc) :
    e.generateRepairH gf dbg false = (e.generateRepair gf dbg).map (fun e => (e, false)) := by
  unfold Enc.generateRepairH Enc.generateRepair
  cases encodeRepair gf dbg e.curRep e.sources with
  | error f => rfl
  | ok r =>
    simp only [bind, Except.bind]
    cases cassert dbg (decide (0 < r.sym.length)) <;> rfl

theorem generateRepairH_true (gf : GF w) (dbg : Bool) (e : Enc) :
    e.generateRepairH gf dbg true = (e.generateRepair gf dbg).map (fun e' => ({ e' with out := e.out }, true)) := by
  unfold Enc.generateRepairH Enc.generateRepair
  cases encodeRepair gf dbg e.curRep e.sources with
  | error f => rfl
  | ok r =>
    simp only [bind, Except.bind]
    cases cassert dbg (decide (0 < r.sym.length)) <;> rfl

theorem emitNewH_false (gf : GF w) (dbg : Bool) (src : ESource) (e : Enc) :
    Enc.emitNewH gf dbg false src e = (Enc.emitNew gf dbg src e).map (fun e => (e, false)) := by
  unfold Enc.emitNewH Enc.emitNew
  split
  · rfl
  · exact generateRepairH_false gf dbg e

theorem commitH_false (gf : GF w) (dbg : Bool) (e : Enc) (d : List Byte) :
    e.commitH gf dbg false false d = (e.commit gf dbg d).map (fun e => (e, false)) := by
  unfold Enc.commitH Enc.commit
  cases cassert dbg (decide (d.length ≠ 0)) with
  | error f => rfl
  | ok _ =>
  cases cassert dbg (decide (w ≠ 16 ∨ d.length % 2 = 0)) with
  | error f => rfl
  | ok _ =>
  cases cassert dbg (decide (w ≠ 32 ∨ d.length % 4 = 0)) with
  | error f => rfl
  | ok _ =>
  cases ensure (!(e.sources.length == e.windowSize && e.sources.isEmpty)) .derefEnd with
  | error f => rfl
  | ok _ =>
    simp only [bind, Except.bind, emitNewH_false]
    generalize Enc.emitNew gf dbg _ _ = x
    cases x with
    | error f => rfl
    | ok e1 =>
      simp only [Except.map, Enc.autoRepair, Bool.false_eq_true, if_false, bind, Except.bind]
      cases ensure (e1.rate != 0) .divZero with
      | error f => rfl
      | ok _ =>
        simp only [generateRepairH_false]
        split
        · cases e1.generateRepair gf dbg <;> rfl
        · rfl

/-- The encoders of a run in which explicit repairs were lost on the way to the network, and of one in which they were sent. -/
structure Behind (s s' : Sys) : Prop where
  enc : s.enc = { s'.enc with out := s.enc.out }
  dec : s.dec = s'.dec
  committed : s.committed = s'.committed
  out : List.Sublist s.enc.out s'.enc.out

/-- The packets already sent do not matter. -/
structure OutFree (op : Enc → Out Enc) : Prop where
  free : ∀ e e1, op e = .ok e1 → ∃ new, e1.out = e.out ++ new ∧ ∀ o, op { e with out := o } = .ok { e1 with out := o ++ new }

theorem outFree_repair (gf : GF w) (dbg : Bool) : OutFree (fun e => e.generateRepair gf dbg) := by
  constructor
  intro e e1 h
  unfold Enc.generateRepair at h
  obtain ⟨r, h1, h⟩ := bind_ok_iff.1 h
  obtain ⟨_, h2, h⟩ := bind_ok_iff.1 h
  cases h
  refine ⟨[.repair r], rfl, fun o => ?_⟩
  unfold Enc.generateRepair
  simp only [h1, h2, bind, Except.bind]
  rfl

theorem outFree_emit (gf : GF w) (dbg : Bool) (src : ESource) : OutFree (fun e => Enc.emitNew gf dbg src e) := by
  constructor
  intro e e1 h
  simp only [Enc.emitNew] at h ⊢
  cases hs : e.systematic with
  | true =>
    rw [hs] at h
    cases h
    exact ⟨[.source src], rfl, fun o => rfl⟩
  | false =>
    rw [hs] at h
    have k := (outFree_repair gf dbg).free e e1 h
    rw [hs] at k
    exact k

theorem outFree_auto (gf : GF w) (dbg : Bool) : OutFree (fun e => Enc.autoRepair gf dbg e) := by
  constructor
  intro e e1 h
  simp only [Enc.autoRepair] at h ⊢
  obtain ⟨_, h1, h⟩ := bind_ok_iff.1 h
  simp only [h1, bind, Except.bind]
  split at h
  · rename_i hc
    simp only [if_pos hc]
    exact (outFree_repair gf dbg).free e e1 h
  · rename_i hc
    simp only [if_neg hc]
    cases h
    exact ⟨[], by simp, fun o => by simp⟩

theorem outFree_commit (gf : GF w) (dbg : Bool) (d : List Byte) : OutFree (fun e => e.commit gf dbg d) := by
  constructor
  intro e e3 h
  simp only [Enc.commit] at h ⊢
  obtain ⟨_, h1, h⟩ := bind_ok_iff.1 h
  obtain ⟨_, h2, h⟩ := bind_ok_iff.1 h
  obtain ⟨_, h3, h⟩ := bind_ok_iff.1 h
  obtain ⟨_, h4, h⟩ := bind_ok_iff.1 h
  obtain ⟨e1, h5, h⟩ := bind_ok_iff.1 h
  obtain ⟨e2, h6, h⟩ := bind_ok_iff.1 h
  cases h
  obtain ⟨n1, k1, f1⟩ := (outFree_emit gf dbg _).free _ _ h5
  obtain ⟨n2, k2, f2⟩ := (outFree_auto gf dbg).free _ _ h6
  refine ⟨n1 ++ n2, by simp only [k2, k1, List.append_assoc], fun o => ?_⟩
  have g1 := f1 o
  have g2 := f2 (o ++ n1)
  simp only at g1 g2
  simp only [h1, h2, h3, h4, bind, Except.bind, g1, g2, List.append_assoc]
  rfl

theorem outFree_setRate (dbg : Bool) (n : Nat) : OutFree (fun e => e.setRate dbg n) := by
  constructor
  intro e e1 h
  simp only [Enc.setRate] at h ⊢
  obtain ⟨_, h1, h⟩ := bind_ok_iff.1 h
  cases h
  exact ⟨[], by simp, fun o => by simp [h1, bind, Except.bind]; rfl⟩

theorem outFree_setWindow (dbg : Bool) (n : Nat) : OutFree (fun e => e.setWindowSize dbg n) := by
  constructor
  intro e e1 h
  simp only [Enc.setWindowSize] at h ⊢
  obtain ⟨_, h1, h⟩ := bind_ok_iff.1 h
  cases h
  exact ⟨[], by simp, fun o => by simp [h1, bind, Except.bind]; rfl⟩

theorem notify_out {F : F64} {dbg : Bool} {e e1 : Enc} {p : List Byte} {r : Except CppErr Nat} (h : e.notify F dbg p = .ok (e1, r))
    (o : List EPkt) : e1.out = e.out ∧ Enc.notify F dbg { e with out := o } p = .ok ({ e1 with out := o }, r) := by
  unfold Enc.notify at h ⊢
  obtain ⟨_, h1, h⟩ := bind_ok_iff.1 h
  simp only [h1, bind, Except.bind]
  cases ht : getPacketType p with
  | error x =>
    rw [ht] at h
    cases x <;> cases h
    exact ⟨rfl, rfl⟩
  | ok ty =>
    rw [ht] at h
    cases ty with
    | repair => cases h; exact ⟨rfl, rfl⟩
    | source => cases h; exact ⟨rfl, rfl⟩
    | ack =>
      simp only at h ⊢
      cases hr : readAck p with
      | error x =>
        rw [hr] at h
        cases x <;> cases h
        exact ⟨rfl, rfl⟩
      | ok an =>
        rw [hr] at h
        obtain ⟨a, n⟩ := an
        cases h
        exact ⟨rfl, rfl⟩

/-- An encoder operation on both sides. -/
theorem behind_enc {s s' : Sys} (hb : Behind s s') {op : Enc → Out Enc} (ho : OutFree op) {e1 : Enc} (h : op s.enc = .ok e1) :
    ∃ e1', op s'.enc = .ok e1' ∧ e1 = { e1' with out := e1.out } ∧ List.Sublist e1.out e1'.out := by
  obtain ⟨new, k, f⟩ := ho.free _ _ h
  have g := f s'.enc.out
  have e : ({ s.enc with out := s'.enc.out } : Enc) = s'.enc := by rw [hb.enc]
  rw [e] at g
  refine ⟨_, g, rfl, ?_⟩
  rw [k]
  exact hb.out.append (List.Sublist.refl _)

/-- One step of the run with exceptions is at most one step of a run without. -/
theorem step_behind {c : Cfg w} {s s' t : Sys} (hb : Behind s s') {x : TAct} (hx : x.SafeCommit) (h : s.stepT c x = .ok t) :
    ∃ acts t', s'.run c acts = .ok t' ∧ Behind t t' := by
  have one : ∀ a t', s'.step c a = .ok t' → Behind t t' → ∃ acts t', s'.run c acts = .ok t' ∧ Behind t t' := by
    intro a t' h1 h2
    refine ⟨[a], t', ?_, h2⟩
    simp only [Sys.run, List.foldlM_cons, List.foldlM_nil, h1, bind, Except.bind]
    rfl
  obtain ⟨a, t1, t2⟩ := x
  have op : ∀ (f : Enc → Out Enc), OutFree f → ∀ e1, f s.enc = .ok e1 → ∀ cm : List (List Byte), ∃ e1', f s'.enc = .ok e1' ∧
      Behind { s with enc := e1, committed := s.committed ++ cm } { s' with enc := e1', committed := s'.committed ++ cm } := by
    intro f hf e1 h1 cm
    obtain ⟨e1', k1, k2, k3⟩ := behind_enc hb hf h1
    exact ⟨e1', k1, k2, hb.dec, by simp only [hb.committed], k3⟩
  have op0 : ∀ (f : Enc → Out Enc), OutFree f → ∀ e1, f s.enc = .ok e1 → ∃ e1', f s'.enc = .ok e1' ∧
      Behind { s with enc := e1 } { s' with enc := e1' } := by
    intro f hf e1 h1
    obtain ⟨e1', k1, k2, k3⟩ := behind_enc hb hf h1
    exact ⟨e1', k1, k2, hb.dec, hb.committed, k3⟩
  cases a with
  | commit d =>
    obtain ⟨rfl, rfl⟩ := hx
    simp only [Sys.stepT, commitH_false] at h
    obtain ⟨ex, h1, h⟩ := bind_ok_iff.1 h
    rw [map_ok_iff] at h1
    obtain ⟨e1, h1, rfl⟩ := h1
    cases h
    obtain ⟨e1', k1, k2⟩ := op _ (outFree_commit c.gf c.dbg d) e1 h1 [d]
    refine one (.commit d) _ ?_ k2
    simp only [Sys.step, k1, bind, Except.bind]
    rfl
  | repair =>
    cases t1 with
    | false =>
      simp only [Sys.stepT, generateRepairH_false] at h
      obtain ⟨ex, h1, h⟩ := bind_ok_iff.1 h
      rw [map_ok_iff] at h1
      obtain ⟨e1, h1, rfl⟩ := h1
      cases h
      obtain ⟨e1', k1, k2⟩ := op0 _ (outFree_repair c.gf c.dbg) e1 h1
      refine one .repair _ ?_ k2
      simp only [Sys.step, k1, bind, Except.bind]
      rfl
    | true =>
      simp only [Sys.stepT, generateRepairH_true] at h
      obtain ⟨ex, h1, h⟩ := bind_ok_iff.1 h
      rw [map_ok_iff] at h1
      obtain ⟨e1, h1, rfl⟩ := h1
      cases h
      obtain ⟨e1', k1, k2, k3⟩ := behind_enc hb (outFree_repair c.gf c.dbg) h1
      refine one .repair { s' with enc := e1' } ?_ ⟨?_, hb.dec, hb.committed, ?_⟩
      · simp only [Sys.step, k1, bind, Except.bind]
        rfl
      · simp only
        rw [k2]
      · obtain ⟨new, k, _⟩ := (outFree_repair c.gf c.dbg).free _ _ h1
        refine List.Sublist.trans ?_ k3
        rw [k]
        exact List.sublist_append_left _ _
  | setRate n =>
    simp only [Sys.stepT, Sys.step] at h
    obtain ⟨e1, h1, h⟩ := bind_ok_iff.1 h
    cases h
    obtain ⟨e1', k1, k2⟩ := op0 _ (outFree_setRate c.dbg n) e1 h1
    refine one (.setRate n) _ ?_ k2
    simp only [Sys.step, k1, bind, Except.bind]
    rfl
  | setWindow n =>
    simp only [Sys.stepT, Sys.step] at h
    obtain ⟨e1, h1, h⟩ := bind_ok_iff.1 h
    cases h
    obtain ⟨e1', k1, k2⟩ := op0 _ (outFree_setWindow c.dbg n) e1 h1
    refine one (.setWindow n) _ ?_ k2
    simp only [Sys.step, k1, bind, Except.bind]
    rfl
  | setAdaptive b =>
    cases h
    refine one (.setAdaptive b) _ rfl ⟨?_, hb.dec, hb.committed, hb.out⟩
    simp only [Enc.setAdaptive]
    rw [hb.enc]
  | setSystematic b =>
    cases h
    refine one (.setSystematic b) _ rfl ⟨?_, hb.dec, hb.committed, hb.out⟩
    simp only [Enc.setCodeType]
    rw [hb.enc]
  | deliver i =>
    simp only [Sys.stepT, Sys.step] at h
    cases hp : s.enc.out[i]? with
    | none =>
      rw [hp] at h
      cases h
      exact ⟨[], s', rfl, hb⟩
    | some p =>
      rw [hp] at h
      simp only at h
      obtain ⟨dr, h1, h⟩ := bind_ok_iff.1 h
      obtain ⟨d1, r⟩ := dr
      cases h
      obtain ⟨j, hj⟩ := List.mem_iff_getElem?.1 (hb.out.subset (List.mem_of_getElem? hp))
      refine one (.deliver j) { s' with dec := d1, hist := s'.hist ++ [j], errs := s'.errs + errCount r } ?_
        ⟨hb.enc, rfl, hb.committed, hb.out⟩
      rw [hb.dec] at h1
      simp only [Sys.step, hj, h1, bind, Except.bind]
      rfl
  | ack j =>
    simp only [Sys.stepT, Sys.step] at h
    cases hp : s.dec.out[j]? with
    | none =>
      rw [hp] at h
      cases h
      exact ⟨[], s', rfl, hb⟩
    | some p =>
      rw [hp] at h
      simp only at h
      obtain ⟨er, h1, h⟩ := bind_ok_iff.1 h
      obtain ⟨e1, r⟩ := er
      cases h
      obtain ⟨k1, k2⟩ := notify_out h1 s'.enc.out
      have e : ({ s.enc with out := s'.enc.out } : Enc) = s'.enc := by rw [hb.enc]
      rw [e] at k2
      refine one (.ack j) { s' with enc := { e1 with out := s'.enc.out }, errs := s'.errs + errCount r } ?_
        ⟨rfl, hb.dec, hb.committed, ?_⟩
      · rw [hb.dec] at hp
        simp only [Sys.step, hp, k2, bind, Except.bind]
        rfl
      · simp only [k1]; exact hb.out
  | genAck =>
    cases h
    exact one .genAck _ rfl ⟨hb.enc, by simp only [hb.dec], hb.committed, hb.out⟩
  | maybeAck =>
    cases h
    exact one .maybeAck _ rfl ⟨hb.enc, by simp only [hb.dec], hb.committed, hb.out⟩
  | setAckNb n =>
    simp only [Sys.stepT, Sys.step] at h
    obtain ⟨d1, h1, h⟩ := bind_ok_iff.1 h
    cases h
    rw [hb.dec] at h1
    refine one (.setAckNb n) { s' with dec := d1 } ?_ ⟨hb.enc, rfl, hb.committed, hb.out⟩
    simp only [Sys.step, h1, bind, Except.bind]
    rfl
  | setAckPeriod ms =>
    cases h
    exact one (.setAckPeriod ms) _ rfl ⟨hb.enc, by simp only [hb.dec], hb.committed, hb.out⟩

theorem run_behind {c : Cfg w} (acts : List TAct) {s s' t : Sys} (hb : Behind s s') (hx : ∀ x ∈ acts, TAct.SafeCommit x)
    (h : s.runT c acts = .ok t) : ∃ acts' t', s'.run c acts' = .ok t' ∧ Behind t t' := by
  induction acts generalizing s s' with
  | nil => cases h; exact ⟨[], s', rfl, hb⟩
  | cons x rest ih =>
    unfold Sys.runT at h
    rw [List.foldlM_cons, bind_ok_iff] at h
    obtain ⟨s1, h1, h⟩ := h
    obtain ⟨a1, s1', k1, b1⟩ := step_behind hb (hx x (by simp)) h1
    obtain ⟨a2, t', k2, b2⟩ := ih b1 (fun y hy => hx y (by simp [hy])) h
    refine ⟨a1 ++ a2, t', ?_, b2⟩
    unfold Sys.run at k1 k2 ⊢
    rw [List.foldlM_append, k1]
    exact k2

end Netcode
