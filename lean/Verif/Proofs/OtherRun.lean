import Verif.Spec.OtherRun
import Verif.Props.Late
import Verif.Proofs.Both
import Verif.Proofs.EncHist

/-!
# Two runs that a decoder cannot tell apart
-/

set_option linter.unusedSectionVars false

namespace Netcode

variable {w : Nat}

/-! ## What an encoder does does not depend on the data, but for the data -/

/-- A packet without its data. -/
def EPkt.strip : EPkt → EPkt
  | .source s => .source ⟨s.id, []⟩
  | .repair r => .repair ⟨r.id, r.ids, 0#16, []⟩

/-- An encoder without the data. -/
def Enc.strip (e : Enc) : Enc := { e with sources := e.sources.map (fun s => ⟨s.id, []⟩), out := e.out.map EPkt.strip }

variable {gf : GF w} {F : F64} {dbg : Bool}

theorem encodeRepair_strip {rid : Nat} {S : List ESource} {r : ERepair} (h : encodeRepair gf dbg rid S = .ok r) :
    (EPkt.repair r).strip = .repair ⟨rid, (S.map (·.id)).foldl setInsert [], 0#16, []⟩ := by
  cases S with
  | nil => cases dbg <;> cases h
  | cons s t =>
    simp only [encodeRepair, bind_ok_iff] at h
    obtain ⟨sym, -, h2⟩ := h
    generalize hr0 : (⟨rid, [s.id], mulSize gf (BitVec.ofNat 16 s.size) (coefficient w rid s.id), sym⟩ : ERepair) = r0 at h2
    have h0 : r0.id = rid := by rw [← hr0]
    have h1 : r0.ids = setInsert [] s.id := by rw [← hr0]; rfl
    rw [List.map_cons, List.foldl_cons, ← h1]
    clear hr0 h1
    induction t generalizing r0 with
    | nil => cases h2; simp [EPkt.strip, h0]
    | cons x t ih =>
      rw [List.foldlM_cons] at h2
      obtain ⟨r1, h3, h4⟩ := (bind_ok_iff).1 h2
      simp only [encodeStep, bind_ok_iff, pure_ok_iff] at h3
      obtain ⟨_, _, rfl⟩ := h3
      exact ih _ h4 h0

theorem strip_ids {e e' : Enc} (h : e'.strip = e.strip) : e'.sources.map (·.id) = e.sources.map (·.id) := by
  have h1 : e'.strip.sources.map (·.id) = e.strip.sources.map (·.id) := by rw [h]
  simpa [Enc.strip, Function.comp_def] using h1

theorem sentRepair_strip {e e' : Enc} {rid : Nat} {r r' : ERepair} (h : e'.strip = e.strip) (h1 : encodeRepair gf dbg rid e.sources = .ok r)
    (h2 : encodeRepair gf dbg rid e'.sources = .ok r') : (e'.sentRepair r').strip = (e.sentRepair r).strip := by
  have ha := encodeRepair_strip h1
  have hb := encodeRepair_strip h2
  rw [strip_ids h] at hb
  simp only [Enc.strip, Enc.sentRepair, List.map_append, List.map_cons, List.map_nil, ha, hb] at *
  simp_all

theorem commit_strip {e e' e1 e1' : Enc} {d d' : List Byte} (h : e'.strip = e.strip) (h1 : e.commit gf dbg d = .ok e1)
    (h2 : e'.commit gf dbg d' = .ok e1') : e1'.strip = e1.strip := by
  have hsys : e'.systematic = e.systematic := by have q := congrArg Enc.systematic h; exact q
  have hrate : e'.rate = e.rate := by have q := congrArg Enc.rate h; exact q
  have hcur : e'.curSrc = e.curSrc := by have q := congrArg Enc.curSrc h; exact q
  have hrep : e'.curRep = e.curRep := by have q := congrArg Enc.curRep h; exact q
  have hws : e'.windowSize = e.windowSize := by have q := congrArg Enc.windowSize h; exact q
  have hsrc : e'.sources.map (fun s => (⟨s.id, []⟩ : ESource)) = e.sources.map (fun s => ⟨s.id, []⟩) := by have q := congrArg Enc.sources h; exact q
  have hout : e'.out.map EPkt.strip = e.out.map EPkt.strip := by have q := congrArg Enc.out h; exact q
  have hlen : e'.sources.length = e.sources.length := by simpa using congrArg List.length hsrc
  have hroom : e'.room.map (fun s => (⟨s.id, []⟩ : ESource)) = e.room.map (fun s => ⟨s.id, []⟩) := by
    unfold Enc.room
    rw [hlen, hws]
    split
    · rw [List.map_tail, List.map_tail, hsrc]
    · exact hsrc
  obtain ⟨a1, a2, ha1, ha2, -, ha3⟩ := commit_inv h1
  obtain ⟨b1, b2, hb1, hb2, -, hb3⟩ := commit_inv h2
  have s1 : b1.strip = a1.strip := by
    subst ha1 hb1
    unfold Enc.strip at h ⊢
    simp only [List.map_append, List.map_cons, List.map_nil, hroom, hcur]
    simp_all
  have r1 : b1.curRep = a1.curRep := by have q := congrArg Enc.curRep s1; exact q
  have s2 : b2.strip = a2.strip := by
    rcases ha2 with ⟨h3, rfl⟩ | ⟨h3, r, h4, rfl⟩ <;> rcases hb2 with ⟨h5, rfl⟩ | ⟨h5, r', h6, rfl⟩
    · unfold Enc.sentSource; unfold Enc.strip at s1 ⊢
      simp only [List.map_append, List.map_cons, List.map_nil, EPkt.strip, hcur] at s1 ⊢
      simp_all
    · rw [hsys, h3] at h5; cases h5
    · rw [hsys, h3] at h5; cases h5
    · rw [r1] at h6; exact sentRepair_strip s1 h4 h6
  have r2 : b2.curRep = a2.curRep := by have q := congrArg Enc.curRep s2; exact q
  have bump : ∀ {a b : Enc}, b.strip = a.strip →
      ({ b with curSrc := (b2.curSrc + 1) % 2 ^ 32 } : Enc).strip = ({ a with curSrc := (a2.curSrc + 1) % 2 ^ 32 } : Enc).strip := by
    intro a b hab
    have : b2.curSrc = a2.curSrc := by have q := congrArg Enc.curSrc s2; exact q
    unfold Enc.strip at hab ⊢
    simp_all
  rcases ha3 with ⟨h3, rfl⟩ | ⟨h3, r, h4, rfl⟩ <;> rcases hb3 with ⟨h5, rfl⟩ | ⟨h5, r', h6, rfl⟩
  · exact bump s2
  · rw [hcur, hrate] at h5; exact absurd h5 h3
  · rw [hcur, hrate] at h5; exact absurd h3 h5
  · rw [r2] at h6; exact bump (sentRepair_strip s2 h4 h6)

theorem repair_strip {e e' e1 e1' : Enc} (h : e'.strip = e.strip) (h1 : e.generateRepair gf dbg = .ok e1)
    (h2 : e'.generateRepair gf dbg = .ok e1') : e1'.strip = e1.strip := by
  obtain ⟨r, h3, rfl⟩ := generateRepair_inv h1
  obtain ⟨r', h4, rfl⟩ := generateRepair_inv h2
  have : e'.curRep = e.curRep := by have q := congrArg Enc.curRep h; exact q
  rw [this] at h4
  exact sentRepair_strip h h3 h4

theorem eraseIds_strip (S : List ESource) (ids : List Nat) :
    (eraseIds S ids).map (fun s => (⟨s.id, []⟩ : ESource)) = eraseIds (S.map (fun s => ⟨s.id, []⟩)) ids := by
  fun_induction eraseIds S ids with
  | case1 => simp [eraseIds]
  | case2 => simp [eraseIds]
  | case3 => simp_all [eraseIds]
  | case4 => simp_all [eraseIds]
  | case5 => simp_all [eraseIds]

theorem notify_strip {e e' e1 : Enc} {p : List Byte} {x : Except CppErr Nat} (h : e'.strip = e.strip) (h1 : e.notify F dbg p = .ok (e1, x)) :
    ∃ e1', e'.notify F dbg p = .ok (e1', x) ∧ e1'.strip = e1.strip := by
  have hnp : p ≠ [] := by
    rintro rfl
    cases dbg <;> simp [Enc.notify, cassert, getPacketType, bind, Except.bind] at h1
  have key : ∀ a : Ack, (e'.gotAck.applyAck F a).strip = (e.gotAck.applyAck F a).strip := by
    intro a
    have hsrc : e'.sources.map (fun s => (⟨s.id, []⟩ : ESource)) = e.sources.map (fun s => ⟨s.id, []⟩) := by have q := congrArg Enc.sources h; exact q
    unfold Enc.strip at h ⊢
    simp only [Enc.gotAck, Enc.applyAck, eraseIds_strip, hsrc]
    simp_all
  have key2 : e'.gotAck.strip = e.gotAck.strip := by
    unfold Enc.strip at h ⊢
    simp only [Enc.gotAck]
    simp_all
  by_cases hp : getPacketType p = .ok .ack
  · rw [Enc.notify_of_ack F dbg e hp] at h1
    rw [Enc.notify_of_ack F dbg e' hp]
    rcases hq : readAck p with (f | f) | ⟨a, n⟩ <;> rw [hq] at h1
    · simp only [Except.ok.injEq, Prod.mk.injEq] at h1
      obtain ⟨rfl, rfl⟩ := h1
      exact ⟨_, rfl, key2⟩
    · cases h1
    · simp only [Except.ok.injEq, Prod.mk.injEq] at h1
      obtain ⟨rfl, rfl⟩ := h1
      exact ⟨_, rfl, key a⟩
  · rw [Enc.notify_of_other F dbg e hnp hp] at h1
    rw [Enc.notify_of_other F dbg e' hnp hp]
    cases h1
    exact ⟨_, rfl, h⟩

/-! ## A packet is determined by its shape and the data -/

theorem isRepairOf_unique {rid : Nat} {S : List ESource} {r r' : ERepair} (h : IsRepairOf gf rid S r) (h' : IsRepairOf gf rid S r') :
    r = r' := by
  have hlen : r.sym.length = r'.sym.length := by
    obtain ⟨s, hs, h1⟩ := h.longest.2
    obtain ⟨s', hs', h1'⟩ := h'.longest.2
    have h2 := h.longest.1 s' hs'
    have h2' := h'.longest.1 s hs
    omega
  have hsym : r.sym = r'.sym := by
    refine List.ext_getElem hlen (fun j h1 h2 => ?_)
    have h3 := h.byte j
    rw [← h'.byte j, List.getD_eq_getElem?_getD, List.getD_eq_getElem?_getD, List.getElem?_eq_getElem h1, List.getElem?_eq_getElem h2] at h3
    exact h3
  have h1 := h.id.trans h'.id.symm
  have h2 := h.ids.trans h'.ids.symm
  have h3 := h.size.trans h'.size.symm
  cases r; cases r'
  simp_all

section
variable {c : Cfg w} {io : Bool} {s s' : Sys}

/-- The other run: other data, but the same decoder. -/
structure OtherRun (data : Nat → List Byte) (s s' : Sys) : Prop where
  dec : s'.dec = s.dec
  hist : s'.hist = s.hist
  errs : s'.errs = s.errs
  enc : s'.enc.strip = s.enc.strip
  len : s'.committed.length = s.committed.length
  agree : Agree data s'.committed

theorem strip_out {e e' : Enc} (h : e'.strip = e.strip) (i : Nat) : (e'.out[i]?).map EPkt.strip = (e.out[i]?).map EPkt.strip := by
  have h1 : e'.out.map EPkt.strip = e.out.map EPkt.strip := by have q := congrArg Enc.out h; exact q
  rw [← List.getElem?_map, ← List.getElem?_map, h1]

/-- The packet of the other run is the same one, if the other data fit it. -/
theorem OtherRun.packet [Fact (0 < w)] {data : Nat → List Byte} (hc : c.Ok) (h : OtherRun data s s') (hr : ReachLate c io s') {i : Nat} {p : EPkt}
    (hp : s.enc.out[i]? = some p) (hf : p.Fits c.gf data) : s'.enc.out[i]? = some p := by
  have h1 := strip_out h.enc i
  rw [hp] at h1
  cases hp' : s'.enc.out[i]? with
  | none => rw [hp'] at h1; cases h1
  | some p' =>
    rw [hp'] at h1
    obtain ⟨u, ems, A, ρ, L, W, K, hI⟩ := (ginv_of_late hc hr data h.agree).view
    have hlt : i < ems.length := by rw [← hI.enc.outLen]; exact getElem?_lt hp'
    have hem := List.getElem?_eq_getElem hlt
    have hren := hI.enc.rend i _ p' hem hp'
    have hmem : ems[i] ∈ ems := List.getElem_mem hlt
    have hlt2 := hI.enc.emLt _ hmem
    generalize ems[i] = em at hren hlt2
    congr 1
    simp only [Option.map_some, Option.some.injEq] at h1
    cases em with
    | src x =>
      have hren : p' = .source (srcOf data x) := hren
      subst hren
      cases p with
      | repair r => cases h1
      | source a =>
        have h2 : a.sym = data a.id := hf
        simp only [EPkt.strip, srcOf, EPkt.source.injEq, ESource.mk.injEq, and_true] at h1
        cases a
        simp_all [srcOf]
    | rep rid Wr =>
      obtain ⟨r', rfl, hok, hne, hso⟩ := hren
      cases p with
      | source a => cases h1
      | repair r =>
        simp only [EPkt.strip, EPkt.repair.injEq, ERepair.mk.injEq, and_true] at h1
        have hq := isRepairOf_of_encOk c.gf hc.width hok (by
          intro s hs
          obtain ⟨x, hx, rfl⟩ := List.mem_map.1 hs
          exact hI.enc.dataOk x (hlt2 x hx))
        have h2 : r'.ids = Wr := by rw [hok.ids, List.map_map]; exact List.map_id' _
        have h3 : IsRepairOf c.gf r.id (r.ids.map fun x => ⟨x, data x⟩) r := hf.1
        rw [← h1.1, ← h1.2, h2, hok.id] at h3
        rw [isRepairOf_unique hq h3]

/-- The shapes of the packets are the same. -/
theorem OtherRun.isRepair {data : Nat → List Byte} (h : OtherRun data s s') (j : Nat) : s'.isRepair j ↔ s.isRepair j := by
  have h1 := strip_out h.enc j
  unfold Sys.isRepair
  constructor
  · rintro ⟨r, hr⟩
    rw [hr] at h1
    cases hp : s.enc.out[j]? with
    | none => rw [hp] at h1; cases h1
    | some p =>
      rw [hp] at h1
      cases p with
      | source a => simp [EPkt.strip] at h1
      | repair r => exact ⟨r, rfl⟩
  · rintro ⟨r, hr⟩
    rw [hr] at h1
    cases hp : s'.enc.out[j]? with
    | none => rw [hp] at h1; cases h1
    | some p =>
      rw [hp] at h1
      cases p with
      | source a => simp [EPkt.strip] at h1
      | repair r => exact ⟨r, rfl⟩

/-- The history only grows. -/
theorem step_mono {a : Act} {s1 : Sys} (h : s.step c a = .ok s1) :
    (∀ i ∈ s.hist, i ∈ s1.hist) ∧ (∃ new, s1.enc.out = s.enc.out ++ new) ∧ ∃ new, s1.committed = s.committed ++ new := by
  cases a with
  | commit d =>
    simp only [Sys.step, bind_ok_iff, pure_ok_iff] at h
    obtain ⟨e, h1, rfl⟩ := h
    refine ⟨fun i hi => hi, ?_, [d], rfl⟩
    obtain ⟨e1, e2, rfl, h2, -, h4⟩ := commit_inv h1
    rcases h2 with ⟨hs, rfl⟩ | ⟨hs, r1, h1, rfl⟩ <;> rcases h4 with ⟨-, rfl⟩ | ⟨-, r2, h2, rfl⟩ <;>
      simp [Enc.sentSource, Enc.sentRepair]
  | repair =>
    simp only [Sys.step, bind_ok_iff, pure_ok_iff] at h
    obtain ⟨e, h1, rfl⟩ := h
    obtain ⟨r, h3, rfl⟩ := generateRepair_inv h1
    exact ⟨fun i hi => hi, ⟨_, rfl⟩, [], by simp⟩
  | setRate n =>
    simp only [Sys.step, Enc.setRate, bind_ok_iff, pure_ok_iff] at h
    obtain ⟨e, ⟨_, _, rfl⟩, rfl⟩ := h
    exact ⟨fun i hi => hi, ⟨[], by simp⟩, [], by simp⟩
  | setWindow n =>
    simp only [Sys.step, Enc.setWindowSize, bind_ok_iff, pure_ok_iff] at h
    obtain ⟨e, ⟨_, _, rfl⟩, rfl⟩ := h
    exact ⟨fun i hi => hi, ⟨[], by simp⟩, [], by simp⟩
  | setAdaptive b => cases h; exact ⟨fun i hi => hi, ⟨[], by simp [Enc.setAdaptive]⟩, [], by simp⟩
  | setSystematic b => cases h; exact ⟨fun i hi => hi, ⟨[], by simp [Enc.setCodeType]⟩, [], by simp⟩
  | deliver i =>
    cases hp : s.enc.out[i]? with
    | none =>
      simp only [Sys.step, hp] at h
      cases h; exact ⟨fun i hi => hi, ⟨[], by simp⟩, [], by simp⟩
    | some p =>
      simp only [Sys.step, hp, bind_ok_iff, pure_ok_iff] at h
      obtain ⟨d, h1, rfl⟩ := h
      exact ⟨fun i hi => List.mem_append_left _ hi, ⟨[], by simp⟩, [], by simp⟩
  | ack j =>
    cases hp : s.dec.out[j]? with
    | none =>
      simp only [Sys.step, hp] at h
      cases h; exact ⟨fun i hi => hi, ⟨[], by simp⟩, [], by simp⟩
    | some p =>
      simp only [Sys.step, hp, bind_ok_iff, pure_ok_iff] at h
      obtain ⟨⟨e, r⟩, h1, rfl⟩ := h
      refine ⟨fun i hi => hi, ⟨[], ?_⟩, [], by simp⟩
      rw [Enc.notify_of_ack c.F c.dbg s.enc (getPacketType_ack p)] at h1
      rcases hq : readAck (writeAck p).flatten with (f | f) | ⟨a, n⟩ <;> rw [hq] at h1 <;> simp at h1 <;> simp [← h1.1, Enc.gotAck, Enc.applyAck]
  | genAck => cases h; exact ⟨fun i hi => hi, ⟨[], by simp⟩, [], by simp⟩
  | maybeAck => cases h; exact ⟨fun i hi => hi, ⟨[], by simp⟩, [], by simp⟩
  | setAckNb n =>
    simp only [Sys.step, bind_ok_iff, pure_ok_iff] at h
    obtain ⟨e, _, rfl⟩ := h
    exact ⟨fun i hi => hi, ⟨[], by simp⟩, [], by simp⟩
  | setAckPeriod ms => cases h; exact ⟨fun i hi => hi, ⟨[], by simp⟩, [], by simp⟩

/-- One step of the other run. -/
theorem OtherRun.step {data : Nat → List Byte} (hc : c.Ok) (hd : ∀ x, DataOk w (data x)) (h : OtherRun data s s') (hr' : ReachLate c io s')
    {a : Act} {s1 : Sys} (ha : AllowedLate c s a) (hs : s.step c a = .ok s1)
    (hf : ∀ i p, a = .deliver i → s.enc.out[i]? = some p → p.Fits c.gf data) :
    ∃ s1', ReachLate c io s1' ∧ OtherRun data s1 s1' := by
  have := fact_of_valid hc.width
  have hreps : s'.enc.nbSentRepairs = s.enc.nbSentRepairs := by have q := congrArg Enc.nbSentRepairs h.enc; exact q
  have hwin : s'.enc.window = s.enc.window := by
    have q := congrArg List.length (strip_ids h.enc); simpa [Enc.window] using q
  cases a with
  | commit d =>
    have ha' : AllowedLate c s' (.commit (data s.committed.length)) := ⟨hd _, by rw [h.len]; exact ha.2.1, by rw [hreps]; exact ha.2.2⟩
    obtain ⟨s1', h1, -⟩ := C05_no_fault_late_partial hc hr' _ ha'
    refine ⟨s1', .step hr' ha' h1, ?_⟩
    simp only [Sys.step, bind_ok_iff, pure_ok_iff] at h1 hs
    obtain ⟨e1, h2, rfl⟩ := hs
    obtain ⟨e1', h2', rfl⟩ := h1
    refine ⟨h.dec, h.hist, h.errs, commit_strip h.enc h2 h2', by simp [h.len], ?_⟩
    intro x e hx
    rcases getElem?_append_singleton hx with h3 | ⟨h3, h4⟩
    · exact h.agree x e h3.2
    · rw [h3, h.len]; exact h4
  | repair =>
    have ha' : AllowedLate c s' .repair := ⟨by rw [hwin]; exact ha.1, by rw [hreps]; exact ha.2⟩
    obtain ⟨s1', h1, -⟩ := C05_no_fault_late_partial hc hr' _ ha'
    refine ⟨s1', .step hr' ha' h1, ?_⟩
    simp only [Sys.step, bind_ok_iff, pure_ok_iff] at h1 hs
    obtain ⟨e1, h2, rfl⟩ := hs
    obtain ⟨e1', h2', rfl⟩ := h1
    exact ⟨h.dec, h.hist, h.errs, repair_strip h.enc h2 h2', h.len, h.agree⟩
  | setRate n =>
    obtain ⟨s1', h1, -⟩ := C05_no_fault_late_partial hc hr' (.setRate n) ha
    refine ⟨s1', .step hr' (a := .setRate n) ha h1, ?_⟩
    simp only [Sys.step, Enc.setRate, bind_ok_iff, pure_ok_iff] at h1 hs
    obtain ⟨_, ⟨_, _, rfl⟩, rfl⟩ := hs
    obtain ⟨_, ⟨_, _, rfl⟩, rfl⟩ := h1
    refine ⟨h.dec, h.hist, h.errs, ?_, h.len, h.agree⟩
    have := h.enc; unfold Enc.strip at this ⊢; simp_all
  | setWindow n =>
    obtain ⟨s1', h1, -⟩ := C05_no_fault_late_partial hc hr' (.setWindow n) ha
    refine ⟨s1', .step hr' (a := .setWindow n) ha h1, ?_⟩
    simp only [Sys.step, Enc.setWindowSize, bind_ok_iff, pure_ok_iff] at h1 hs
    obtain ⟨_, ⟨_, _, rfl⟩, rfl⟩ := hs
    obtain ⟨_, ⟨_, _, rfl⟩, rfl⟩ := h1
    refine ⟨h.dec, h.hist, h.errs, ?_, h.len, h.agree⟩
    have := h.enc; unfold Enc.strip at this ⊢; simp_all
  | setAdaptive b =>
    cases hs
    refine ⟨_, .step hr' (a := .setAdaptive b) trivial rfl, h.dec, h.hist, h.errs, ?_, h.len, h.agree⟩
    have := h.enc; unfold Enc.setAdaptive; unfold Enc.strip at this ⊢; simp_all
  | setSystematic b =>
    cases hs
    refine ⟨_, .step hr' (a := .setSystematic b) trivial rfl, h.dec, h.hist, h.errs, ?_, h.len, h.agree⟩
    have := h.enc; unfold Enc.setCodeType; unfold Enc.strip at this ⊢; simp_all
  | deliver i =>
    cases hp : s.enc.out[i]? with
    | none =>
      simp only [Sys.step, hp] at hs
      cases hs; exact ⟨s', hr', h⟩
    | some p =>
      have hp' := h.packet hc hr' hp (hf i p rfl hp)
      have hst : ∃ s1', s'.step c (.deliver i) = .ok s1' ∧ OtherRun data s1 s1' := by
        simp only [Sys.step, hp, bind_ok_iff, pure_ok_iff] at hs
        obtain ⟨⟨d, r⟩, h1, rfl⟩ := hs
        refine ⟨{ s' with dec := d, hist := s'.hist ++ [i], errs := s'.errs + errCount r }, ?_, ?_⟩
        · simp only [Sys.step, hp', h.dec, h1]; rfl
        · exact ⟨rfl, by simp [h.hist], by simp [h.errs], h.enc, h.len, h.agree⟩
      obtain ⟨s1', h1, h2⟩ := hst
      refine ⟨s1', .step hr' (a := .deliver i) ?_ h1, h2⟩
      cases p with
      | source a =>
        simp only [AllowedLate, hp] at ha
        simp only [AllowedLate, hp']
        unfold Sys.InTimeLate at ha ⊢
        rw [h.hist, h.dec]
        simp only [h.isRepair]
        rcases ha with ha | ha | ha
        · exact .inl ha
        · exact .inr (.inl ha)
        · refine .inr (.inr ?_)
          intro sr hsr
          rw [hp'] at hsr; cases hsr
          exact ha _ hp
      | repair r =>
        simp only [AllowedLate, Allowed, hp] at ha
        simp only [AllowedLate, Allowed, hp']
        refine ⟨?_, ha.2.1, fun x hx => ?_⟩
        · have := ha.1
          unfold Sys.MayArrive at this ⊢
          simpa only [h.isRepair, h.hist, h.dec] using this
        have h3 := (hf i _ rfl hp).2 x hx
        obtain ⟨u, ems, A, ρ, L, W, K, hI⟩ := (ginv_of_late hc hr' data h.agree).view
        have hxl : x < s'.committed.length := by
          have hlt : i < ems.length := by rw [← hI.enc.outLen]; exact getElem?_lt hp'
          have hem := List.getElem?_eq_getElem hlt
          have hren := hI.enc.rend i _ _ hem hp'
          have hlt2 := hI.enc.emLt _ (List.getElem_mem hlt)
          generalize ems[i] = em at hren hlt2
          cases em with
          | src x => cases hren
          | rep rid Wr =>
            obtain ⟨r', hr, hok, hne, hso⟩ := hren
            cases hr
            refine hlt2 x ?_
            show x ∈ Wr
            have h2 : r.ids = Wr := by rw [hok.ids, List.map_map]; exact List.map_id' _
            rw [← h2]; exact hx
        rw [h.agree.getD x hxl]
        exact h3
  | ack j =>
    cases hp : s.dec.out[j]? with
    | none =>
      simp only [Sys.step, hp] at hs
      cases hs; exact ⟨s', hr', h⟩
    | some p =>
      have hp' : s'.dec.out[j]? = some p := by rw [h.dec]; exact hp
      have ha' : AllowedLate c s' (.ack j) := by
        simp only [AllowedLate, Allowed, h.dec] at ha ⊢; exact ha
      simp only [Sys.step, hp, bind_ok_iff, pure_ok_iff] at hs
      obtain ⟨⟨e, r⟩, h1, rfl⟩ := hs
      obtain ⟨e', h2, h3⟩ := notify_strip h.enc h1
      have hst : s'.step c (.ack j) = .ok { s' with enc := e', errs := s'.errs + errCount r } := by
        simp only [Sys.step, hp', h2]; rfl
      exact ⟨_, .step hr' ha' hst, h.dec, h.hist, by simp [h.errs], h3, h.len, h.agree⟩
  | genAck =>
    cases hs
    exact ⟨_, .step hr' (a := .genAck) trivial rfl, by simp [h.dec], h.hist, h.errs, h.enc, h.len, h.agree⟩
  | maybeAck =>
    cases hs
    exact ⟨_, .step hr' (a := .maybeAck) trivial rfl, by simp [h.dec], h.hist, h.errs, h.enc, h.len, h.agree⟩
  | setAckNb n =>
    simp only [Sys.step, bind_ok_iff, pure_ok_iff] at hs
    obtain ⟨d, h1, rfl⟩ := hs
    have hst : s'.step c (.setAckNb n) = .ok { s' with dec := d } := by
      simp only [Sys.step, h.dec, h1]; rfl
    exact ⟨_, .step hr' (a := .setAckNb n) ha hst, rfl, h.hist, h.errs, h.enc, h.len, h.agree⟩
  | setAckPeriod ms =>
    cases hs
    exact ⟨_, .step hr' (a := .setAckPeriod ms) trivial rfl, by simp [h.dec], h.hist, h.errs, h.enc, h.len, h.agree⟩

/-- If other data fit all packets that arrived, there is a run with these data that leads to the same decoder. -/
theorem otherRun_of_reach {data : Nat → List Byte} (hc : c.Ok) (hd : ∀ x, DataOk w (data x)) (h : ReachLate c io s)
    (hf : ∀ i ∈ s.hist, ∀ p, s.enc.out[i]? = some p → p.Fits c.gf data) : ∃ s', ReachLate c io s' ∧ OtherRun data s s' := by
  induction h with
  | init => exact ⟨_, .init, rfl, rfl, rfl, rfl, rfl, by intro x d hx; simp [Sys.init] at hx⟩
  | @step s s1 a hr ha hs ih =>
    obtain ⟨hm1, ⟨new, hm2⟩, -⟩ := step_mono hs
    have hout : ∀ (i : Nat) p, s.enc.out[i]? = some p → s1.enc.out[i]? = some p := by
      intro i p hp
      rw [hm2, List.getElem?_append_left (getElem?_lt hp)]; exact hp
    obtain ⟨s', hr', ht⟩ := ih (fun i hi p hp => hf i (hm1 i hi) p (hout i p hp))
    refine ht.step hc hd hr' ha hs ?_
    rintro i p rfl hp
    refine hf i ?_ p (hout i p hp)
    simp only [Sys.step, hp, bind_ok_iff, pure_ok_iff] at hs
    obtain ⟨d, h1, rfl⟩ := hs
    simp

end

end Netcode
