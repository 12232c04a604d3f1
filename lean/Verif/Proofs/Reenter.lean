import Verif.Spec.Reenter
import Verif.Proofs.Handlers
import Verif.Props.System
import Verif.Proofs.Check

/-!
# Calls from within the packet handler: proofs
-/

namespace Netcode

variable {w : Nat}

/-- Another rate and another identifier for the next source. -/
def Enc.tweak (e : Enc) (r n : Nat) : Enc := { e with rate := r, curSrc := n }

theorem generateRepair_tweak (gf : GF w) (dbg : Bool) (e : Enc) (r n : Nat) :
    (e.tweak r n).generateRepair gf dbg = (e.generateRepair gf dbg).map (·.tweak r n) := by
  unfold Enc.generateRepair Enc.tweak
  simp only
  cases encodeRepair gf dbg e.curRep e.sources with
  | error f => rfl
  | ok x =>
    show (cassert dbg _ >>= _ : Out Enc) = Except.map _ (cassert dbg _ >>= _ : Out Enc)
    cases cassert dbg (decide (0 < x.sym.length)) <;> rfl

theorem emitNew_rate (gf : GF w) (dbg : Bool) (src : ESource) (e : Enc) (r : Nat) :
    Enc.emitNew gf dbg src { e with rate := r } = (Enc.emitNew gf dbg src e).map (fun e => { e with rate := r }) := by
  unfold Enc.emitNew
  simp only
  split
  · rfl
  · have := generateRepair_tweak gf dbg e r e.curSrc
    unfold Enc.tweak at this
    rw [show ({ e with rate := r } : Enc) = { e with rate := r, curSrc := e.curSrc } from rfl, this]
    cases h : e.generateRepair gf dbg with
    | error f => rfl
    | ok e' =>
      obtain ⟨x, -, rfl⟩ := generateRepair_inv h
      rfl

theorem notify_curSrc (F : F64) (dbg : Bool) (e : Enc) (p : List Byte) (n : Nat) :
    Enc.notify F dbg { e with curSrc := n } p = (e.notify F dbg p).map (fun x => ({ x.1 with curSrc := n }, x.2)) := by
  unfold Enc.notify
  cases cassert dbg (decide (p.length ≠ 0)) with
  | error f => rfl
  | ok u =>
    show (match getPacketType p with | .error (.fault f) => _ | .error (.cpp x) => _ | .ok .ack => _ | .ok _ => _ : Out _) =
      Except.map _ (match getPacketType p with | .error (.fault f) => _ | .error (.cpp x) => _ | .ok .ack => _ | .ok _ => _ : Out _)
    cases getPacketType p with
    | error x => cases x <;> rfl
    | ok t =>
      cases t with
      | ack =>
        simp only
        cases readAck p with
        | error x => cases x <;> rfl
        | ok x => rfl
      | _ => rfl

theorem generateRepair_bump (gf : GF w) (dbg : Bool) (e : Enc) :
    e.bump.generateRepair gf dbg = (e.generateRepair gf dbg).map (·.bump) := by
  have := generateRepair_tweak gf dbg e e.rate ((e.curSrc + 1) % 2 ^ 32)
  rw [show e.bump = e.tweak e.rate ((e.curSrc + 1) % 2 ^ 32) from rfl, this]
  cases h : e.generateRepair gf dbg with
  | error f => rfl
  | ok e' =>
    obtain ⟨x, -, rfl⟩ := generateRepair_inv h
    rfl

theorem notify_fst_curSrc {F : F64} {dbg : Bool} {e e' : Enc} {p : List Byte} {r : Except CppErr Nat}
    (h : e.notify F dbg p = .ok (e', r)) : e'.curSrc = e.curSrc := by
  unfold Enc.notify at h
  obtain ⟨_, _, h⟩ := bind_ok_iff.1 h
  cases ht : getPacketType p with
  | error x => rw [ht] at h; cases x <;> cases h; rfl
  | ok t =>
    rw [ht] at h
    cases t with
    | ack =>
      simp only at h
      cases hr : readAck p with
      | error x => rw [hr] at h; cases x <;> cases h; rfl
      | ok x => rw [hr] at h; cases h; rfl
    | _ => cases h; rfl

/-- Only a commit depends on the identifier of the next source. -/
theorem step_bump (c : Cfg w) (s : Sys) (a : Act) (ha : ∀ d, a ≠ .commit d) :
    s.bump.step c a = (s.step c a).map Sys.bump := by
  cases a with
  | commit d => exact absurd rfl (ha d)
  | repair =>
    simp only [Sys.step, Sys.bump, generateRepair_bump]
    cases s.enc.generateRepair c.gf c.dbg <;> rfl
  | setRate n =>
    simp only [Sys.step, Sys.bump, Enc.setRate]
    cases cassert c.dbg (decide (0 < n)) <;> rfl
  | setWindow n =>
    simp only [Sys.step, Sys.bump, Enc.setWindowSize]
    cases cassert c.dbg (decide (0 < n)) <;> rfl
  | deliver i =>
    simp only [Sys.step]
    rw [show s.bump.enc.out = s.enc.out from rfl]
    cases s.enc.out[i]? with
    | none => rfl
    | some p =>
      simp only
      rw [show s.bump.dec = s.dec from rfl]
      cases s.dec.notify c.gf c.dbg c.clk p.bytes <;> rfl
  | ack j =>
    simp only [Sys.step]
    rw [show s.bump.dec = s.dec from rfl]
    cases s.dec.out[j]? with
    | none => rfl
    | some p =>
      simp only
      rw [show s.bump.enc = { s.enc with curSrc := (s.enc.curSrc + 1) % 2 ^ 32 } from rfl, notify_curSrc]
      cases h : s.enc.notify c.F c.dbg (writeAck p).flatten with
      | error f => rfl
      | ok x =>
        obtain ⟨e', r⟩ := x
        show Except.ok _ = Except.ok _
        rw [← notify_fst_curSrc h]
        rfl
  | setAckNb n =>
    simp only [Sys.step, Sys.bump, NDec.setAckNb]
    cases cassert c.dbg (decide (0 < n)) <;> rfl
  | _ => rfl

theorem allowed_bump {c : Cfg w} {s : Sys} {a : Act} : Allowed c s.bump a ↔ Allowed c s a := by
  cases a <;> exact Iff.rfl

/-- A commit is its beginning, the automatic repair and the next identifier. -/
theorem commit_eq (gf : GF w) (dbg : Bool) (e : Enc) (d : List Byte) :
    e.commit gf dbg d = (do let e ← e.commitBegin gf dbg d; let e ← e.autoRepair gf dbg; return e.bump) := by
  unfold Enc.commit Enc.commitBegin
  simp only [bind_assoc]
  rfl

theorem commitBegin_rate (gf : GF w) (dbg : Bool) (e : Enc) (d : List Byte) (r : Nat) :
    Enc.commitBegin gf dbg { e with rate := r } d = (e.commitBegin gf dbg d).map (fun e => { e with rate := r }) := by
  unfold Enc.commitBegin
  simp only
  cases cassert dbg (decide (d.length ≠ 0)) with
  | error f => rfl
  | ok _ =>
  cases cassert dbg (decide (w ≠ 16 ∨ d.length % 2 = 0)) with
  | error f => rfl
  | ok _ =>
  cases cassert dbg (decide (w ≠ 32 ∨ d.length % 4 = 0)) with
  | error f => rfl
  | ok _ =>
  cases ensure (!(e.sources.length == e.windowSize && e.sources.isEmpty)) .derefEnd with
  | error f => rfl
  | ok _ =>
    exact emitNew_rate gf dbg ⟨e.curSrc, d⟩
      { e with sources := (if e.sources.length = e.windowSize then e.sources.tail else e.sources) ++ [⟨e.curSrc, d⟩] } r

theorem commitBegin_frame {gf : GF w} {dbg : Bool} {e e' : Enc} {d : List Byte} (h : e.commitBegin gf dbg d = .ok e') :
    e'.rate = e.rate ∧ e'.curSrc = e.curSrc := by
  unfold Enc.commitBegin at h
  simp only [bind_ok_iff] at h
  obtain ⟨-, -, -, -, -, -, -, -, h2⟩ := h
  rcases emitNew_inv h2 with ⟨-, rfl⟩ | ⟨-, r, -, rfl⟩ <;> exact ⟨rfl, rfl⟩

/-- A commit with a rate for which no repair is due. -/
theorem commit_slow {gf : GF w} {dbg : Bool} {e : Enc} (d : List Byte) (hn : e.curSrc + 1 < 2 ^ 32) :
    Enc.commit gf dbg { e with rate := 2 ^ 32 } d = (e.commitBegin gf dbg d).map (fun e => { e.bump with rate := 2 ^ 32 }) := by
  rw [commit_eq, commitBegin_rate]
  cases h : e.commitBegin gf dbg d with
  | error f => rfl
  | ok e' =>
    obtain ⟨-, h2⟩ := commitBegin_frame h
    show (Enc.autoRepair gf dbg { e' with rate := 2 ^ 32 } >>= _ : Out Enc) = _
    have : Enc.autoRepair gf dbg { e' with rate := 2 ^ 32 } = .ok { e' with rate := 2 ^ 32 } := by
      unfold Enc.autoRepair
      simp only [h2]
      rw [if_neg (by rw [Nat.mod_eq_of_lt hn, Nat.mod_eq_of_lt hn]; omega)]
      rfl
    rw [this]
    rfl

/-- The beginning of a commit is a commit with another rate. -/
theorem reach_begin {c : Cfg w} {io : Bool} {s : Sys} (hc : c.Ok) (h : Reach c io s) (d : List Byte) (ha : Allowed c s (.commit d)) :
    ∃ e, s.enc.commitBegin c.gf c.dbg d = .ok e ∧
      Reach c io { s with enc := e.bump, committed := s.committed ++ [d] } := by
  have := fact_of_valid hc.width
  obtain ⟨_, _, _, _, _, _, hI⟩ := reach_inv hc h _ (comData_agree s)
  have h1 : s.step c (.setRate (2 ^ 32)) = .ok { s with enc := { s.enc with rate := 2 ^ 32 } } := by
    simp only [Sys.step, Enc.setRate]
    rw [cassert_true _ (by decide)]
    rfl
  have r1 := Reach.step h (a := .setRate (2 ^ 32)) (by show 0 < 2 ^ 32; decide) h1
  have ha' : Allowed c { s with enc := { s.enc with rate := 2 ^ 32 } } (.commit d) := ha
  obtain ⟨s2, h2, -⟩ := C05_no_fault_partial hc r1 _ ha'
  have r2 := Reach.step r1 ha' h2
  have hlt : s.enc.curSrc + 1 < 2 ^ 32 := by rw [hI.cur]; exact ha.2.1
  simp only [Sys.step] at h2
  rw [commit_slow d hlt] at h2
  cases hb : s.enc.commitBegin c.gf c.dbg d with
  | error f => rw [hb] at h2; cases h2
  | ok e =>
    rw [hb] at h2
    cases h2
    refine ⟨e, rfl, ?_⟩
    have hr := (commitBegin_frame hb).1
    refine Reach.step r2 (a := .setRate s.enc.rate) (Nat.pos_of_ne_zero hI.rate) ?_
    simp only [Sys.step, Enc.setRate]
    rw [cassert_true _ (by simpa using Nat.pos_of_ne_zero hI.rate), ← hr]
    rfl

theorem allowedR_api {c : Cfg w} {x : Sys × Phase} {a : Act} (h : AllowedR c x (.api a)) :
    Allowed c x.1 a ∧ (x.2 = .idle ∨ ∀ d, a ≠ .commit d) := by
  cases a with
  | commit d => exact ⟨h.2, .inl h.1⟩
  | _ => exact ⟨h, .inr (fun d hd => by cases hd)⟩

/-- One allowed step: it meets no fault, and the caller sees ordinary steps. -/
theorem stepR_ok {c : Cfg w} {io : Bool} (hc : c.Ok) {x : Sys × Phase} (h : Reach c io (outside x)) (a : RAct) (ha : AllowedR c x a) :
    ∃ x', Sys.stepR c x a = .ok x' ∧ Reach c io (outside x') := by
  have := fact_of_valid hc.width
  obtain ⟨s, ph⟩ := x
  cases a with
  | begin d =>
    obtain ⟨h1, h2⟩ := ha
    simp only at h1
    subst h1
    change Reach c io s at h
    obtain ⟨e, h3, h4⟩ := reach_begin hc h d h2
    refine ⟨({ s with enc := e, committed := s.committed ++ [d] }, .first), ?_, h4⟩
    simp only [Sys.stepR]
    rw [h3]
    rfl
  | api a =>
    obtain ⟨h1, h2⟩ := allowedR_api ha
    by_cases hi : ph = .idle
    · subst hi
      change Reach c io s at h
      obtain ⟨s', h3, -⟩ := C05_no_fault_partial hc h a h1
      refine ⟨(s', .idle), ?_, Reach.step h h1 h3⟩
      simp only [Sys.stepR]
      rw [h3]
      rfl
    · have hn := h2.resolve_left hi
      have ho : ∀ t : Sys, outside (t, ph) = t.bump := by intro t; cases ph <;> first | rfl | exact absurd rfl hi
      rw [ho] at h
      obtain ⟨s', h3, -⟩ := C05_no_fault_partial hc h a (allowed_bump.2 h1)
      have h4 := h3
      rw [step_bump c s a hn] at h4
      cases h5 : s.step c a with
      | error f => rw [h5] at h4; cases h4
      | ok t =>
        rw [h5] at h4
        cases h4
        refine ⟨(t, ph), ?_, ?_⟩
        · simp only [Sys.stepR]
          rw [h5]
          rfl
        · rw [ho]; exact Reach.step h (allowed_bump.2 h1) h3
  | ret =>
    cases ph with
    | idle => exact ⟨(s, .idle), rfl, h⟩
    | second => exact ⟨(s.bump, .idle), rfl, h⟩
    | first =>
      obtain ⟨_, _, _, _, _, _, hI⟩ := reach_inv hc h _ (comData_agree _)
      have hr : s.enc.rate ≠ 0 := hI.rate
      have he : ensure (s.enc.rate != 0) .divZero = .ok () := by simp [ensure, hr]
      by_cases hd : s.enc.due = true
      · have h1 := ha rfl hd
        obtain ⟨s', h3, -⟩ := C05_no_fault_partial hc h .repair (allowed_bump.2 h1)
        have h4 := h3
        rw [show outside (s, .first) = s.bump from rfl, step_bump c s .repair (by intro d hd; cases hd)] at h4
        simp only [Sys.step] at h4
        cases h5 : s.enc.generateRepair c.gf c.dbg with
        | error f => rw [h5] at h4; cases h4
        | ok e =>
          rw [h5] at h4
          cases h4
          refine ⟨({ s with enc := e }, .second), ?_, Reach.step h (allowed_bump.2 h1) h3⟩
          simp only [Sys.stepR]
          rw [he, h5]
          simp only [bind, Except.bind, hd, if_true]
          rfl
      · refine ⟨(s.bump, .idle), ?_, h⟩
        simp only [Sys.stepR]
        rw [he]
        simp only [bind, Except.bind, hd]
        rfl

theorem reachR_reach {c : Cfg w} {io : Bool} (hc : c.Ok) {x : Sys × Phase} (h : ReachR c io x) : Reach c io (outside x) := by
  induction h with
  | init => exact .init
  | step _ ha hst ih =>
    obtain ⟨x', h1, h2⟩ := stepR_ok hc ih _ ha
    rw [hst] at h1
    cases h1
    exact h2

/-! ## Examples -/

/-- Boolean version of `AllowedR`. -/
def allowedRB (c : Cfg w) (x : Sys × Phase) : RAct → Bool
  | .begin d => x.2 = .idle && allowedB c x.1 (.commit d)
  | .api (.commit d) => x.2 = .idle && allowedB c x.1 (.commit d)
  | .api a => allowedB c x.1 a
  | .ret => x.2 != .first || !x.1.enc.due || allowedB c x.1 .repair

theorem allowedR_of_B {c : Cfg w} {x : Sys × Phase} {a : RAct} (h : allowedRB c x a = true) : AllowedR c x a := by
  cases a with
  | begin d =>
    simp only [allowedRB, Bool.and_eq_true, decide_eq_true_eq] at h
    exact ⟨h.1, allowed_of_B h.2⟩
  | ret =>
    intro h1 h2
    simp only [allowedRB, h1, h2, Bool.or_eq_true] at h
    exact allowed_of_B (by simpa using h)
  | api a =>
    cases a with
    | commit d =>
      simp only [allowedRB, Bool.and_eq_true, decide_eq_true_eq] at h
      exact ⟨h.1, allowed_of_B h.2⟩
    | _ => exact allowed_of_B (c := c) (s := x.1) (by simpa only [allowedRB] using h)

/-- Run a schedule as long as it is allowed. -/
def runAllowedR (c : Cfg w) : Sys × Phase → List RAct → Option (Sys × Phase)
  | x, [] => some x
  | x, a :: t =>
    if allowedRB c x a then
      match Sys.stepR c x a with
      | .ok x' => runAllowedR c x' t
      | .error _ => none
    else none

theorem reachR_of_run {c : Cfg w} {io : Bool} {x : Sys × Phase} (acts : List RAct) (h : ReachR c io x) {x' : Sys × Phase}
    (hr : runAllowedR c x acts = some x') : ReachR c io x' := by
  induction acts generalizing x with
  | nil => cases hr; exact h
  | cons a t ih =>
    unfold runAllowedR at hr
    split at hr
    · next ha =>
      split at hr
      · next s1 h1 => exact ih (.step h (allowedR_of_B ha) h1) hr
      · cases hr
    · cases hr

end Netcode
