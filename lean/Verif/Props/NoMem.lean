import Verif.Spec.NoMem
import Verif.Props.System
import Verif.Props.DataCalls
import Verif.Proofs.DecHist
import Verif.Proofs.EncHist

/-!
# C100: programs that run out of memory
-/

namespace Netcode

variable {w : Nat} {gf : GF w} {F : F64} {dbg : Bool} {c : Cfg w} {io : Bool} {s : Sys}

/-! ## One call -/

/-- **C100.** A repair that is asked for and for which there is no memory: the caller gets the exception, and the encoder is what it was. -/
theorem C100_repair (e : Enc) (hne : e.window ≠ 0) : e.generateRepairM gf dbg true = .ok (e, true) := by
  have h : e.sources ≠ [] := by intro hx; apply hne; unfold Enc.window; rw [hx]; rfl
  unfold Enc.generateRepairM
  rw [if_pos rfl, cassert_true _ (by simpa using h)]
  cases hs : e.sources with
  | nil => exact absurd hs h
  | cons a t => rfl

/-- **C100.** Of an ack for which there is no memory only the counter of acks keeps a trace. -/
theorem C100_ack (e : Enc) (a : Ack) :
    e.notifyM F dbg true (writeAck a).flatten = .ok ({ e with nbAcks := e.nbAcks + 1 }, none) := by
  unfold Enc.notifyM
  rw [getPacketType_ack]
  show (cassert dbg _ >>= _) = _
  rw [cassert_true _ (by simp [writeAck, beBytes])]
  rfl

/-- **C100.** A commit for which there is no memory at all: the caller gets the exception, nothing is sent, and the encoder is what it was, but
that the oldest source has left the window if it was full. -/
theorem C100_commit (e e' : Enc) (x : Bool) (d : List Byte) (h : e.commitM gf dbg .node d = .ok (e', x)) :
    x = true ∧ e' = { e with sources := if e.sources.length = e.windowSize then e.sources.drop 1 else e.sources } := by
  unfold Enc.commitM at h
  simp only [bind_ok_iff] at h
  obtain ⟨_, -, _, -, _, -, _, -, h⟩ := h
  rw [if_pos trivial] at h
  cases h
  exact ⟨rfl, by simp⟩

/-- **C100.** A repair for whose list of sources there is no memory counts as received, and has no other effect. -/
theorem C100_read (d : NDec) (p : List Byte) (hp : p ≠ []) :
    d.repairM dbg p = .ok { d with nbRepairs := d.nbRepairs + 1, ackPackets := (d.ackPackets + 1) % 2 ^ 16 } := by
  unfold NDec.repairM
  rw [cassert_true _ (by simpa using hp)]
  rfl

/-- The window does not count as empty and full. -/
theorem commitM_node_room {e e' : Enc} {x : Bool} {d : List Byte} (h : e.commitM gf dbg .node d = .ok (e', x)) :
    (!(e.sources.length == e.windowSize && e.sources.isEmpty)) = true := by
  unfold Enc.commitM at h
  simp only [bind_ok_iff] at h
  obtain ⟨_, -, _, -, _, -, _, h4, -⟩ := h
  by_contra hx
  rw [Bool.not_eq_true] at hx
  rw [hx] at h4
  cases h4

/-- After failed commits, in a row, the encoder is the same but for the oldest source of a full window. -/
theorem failed_inv {ds : List (List Byte)} {e e' : Enc}
    (h : ds.foldlM (fun e d => (·.1) <$> e.commitM gf dbg .node d) e = .ok e') :
    e' = e ∨ (e.sources.length = e.windowSize ∧ e.sources ≠ [] ∧ e' = { e with sources := e.sources.tail }) := by
  induction ds generalizing e with
  | nil => cases h; exact .inl rfl
  | cons d t ih =>
    rw [List.foldlM_cons, bind_ok_iff] at h
    obtain ⟨e1, h1, h2⟩ := h
    obtain ⟨⟨e2, x⟩, h3, rfl⟩ := map_ok_iff.1 h1
    have hroom := commitM_node_room h3
    obtain ⟨-, rfl⟩ := C100_commit e e2 x d h3
    by_cases hf : e.sources.length = e.windowSize
    · have hne : e.sources ≠ [] := by
        intro hx
        rw [hx] at hf hroom
        simp [← hf] at hroom
      have hpos : 0 < e.sources.length := List.length_pos_iff.2 hne
      refine .inr ⟨hf, hne, ?_⟩
      rw [if_pos hf] at h2
      rcases ih h2 with rfl | ⟨g1, -, -⟩
      · simp
      · simp only [List.length_drop] at g1
        omega
    · rw [if_neg hf] at h2
      exact ih h2

/-- **C100.** Commits for which there is no memory, as many as there may be, leave no trace after the next one that succeeds: the same
packets are sent and the encoder is the same as if the failed commits had not been tried. -/
theorem C100_retry (ds : List (List Byte)) (d : List Byte) (e e' : Enc)
    (h : ds.foldlM (fun e d => (·.1) <$> e.commitM gf dbg .node d) e = .ok e') : e'.commit gf dbg d = e.commit gf dbg d := by
  rcases failed_inv h with rfl | ⟨hf, hne, rfl⟩
  · rfl
  · have hpos : 0 < e.sources.length := List.length_pos_iff.2 hne
    have hl : e.sources.tail.length ≠ e.windowSize := by rw [List.length_tail]; omega
    have b1 : (!(e.sources.length == e.windowSize && e.sources.isEmpty)) = true := by
      cases hs : e.sources with
      | nil => exact absurd hs hne
      | cons a t => simp
    have b2 : (!(e.sources.tail.length == e.windowSize && e.sources.tail.isEmpty)) = true := by
      rw [beq_false_of_ne hl]; rfl
    unfold Enc.commit
    simp only [b1, b2, if_pos hf, if_neg hl]

/-- A window of two sources, full, and two failed commits. -/
example : ((Enc.init.setWindowSize true 2).bind fun e => (e.commit gf8 true [1]).bind fun e => (e.commit gf8 true [2]).bind fun e =>
      [[3], [4]].foldlM (fun e d => (·.1) <$> e.commitM gf8 true .node d) e).toOption.map (fun e => (e.win, e.curSrc, e.out.length)) =
    some ([1], 2, 2) := by decide +kernel

/-! ## An encoder and a decoder -/

theorem generateRepairM_false (e : Enc) : e.generateRepairM gf dbg false = (e.generateRepair gf dbg).map (fun e => (e, false)) := by
  unfold Enc.generateRepairM
  rw [if_neg (by simp)]
  cases e.generateRepair gf dbg <;> rfl

theorem emitNewM_false (src : ESource) (e : Enc) : Enc.emitNewM gf dbg false src e = (e.emitNew gf dbg src).map (fun e => (e, false)) := by
  unfold Enc.emitNewM Enc.emitNew
  split
  · rfl
  · exact generateRepairM_false e

theorem autoRepairM_false (e : Enc) : e.autoRepairM gf dbg false = (e.autoRepair gf dbg).map (fun e => (e, false)) := by
  unfold Enc.autoRepairM Enc.autoRepair
  cases ensure (e.rate != 0) UB.divZero with
  | error f => rfl
  | ok u =>
    show (if _ then _ else _) = Except.map _ (if _ then _ else _)
    split
    · exact generateRepairM_false e
    · rfl

theorem commitM_none (e : Enc) (d : List Byte) : e.commitM gf dbg .none d = (e.commit gf dbg d).map (fun e => (e, false)) := by
  unfold Enc.commitM Enc.commit
  generalize cassert dbg (d.length ≠ 0) = a1
  generalize cassert dbg (w ≠ 16 ∨ d.length % 2 = 0) = a2
  generalize cassert dbg (w ≠ 32 ∨ d.length % 4 = 0) = a3
  generalize ensure (!(e.sources.length == e.windowSize && e.sources.isEmpty)) UB.derefEnd = a4
  cases a1 <;> cases a2 <;> cases a3 <;> cases a4 <;> try rfl
  rw [show decide (Mem.none = Mem.first) = false from rfl, show decide (Mem.none = Mem.second) = false from rfl]
  simp only [reduceCtorEq, if_false, emitNewM_false, autoRepairM_false, bind, Except.bind, pure, Except.pure]
  cases Enc.emitNew gf dbg _ _ with
  | error f => rfl
  | ok e1 =>
    simp only [Except.map, Bool.false_eq_true, if_false]
    cases e1.autoRepair gf dbg <;> rfl

/-- Without failing allocations, this is the model. -/
theorem C100_model (c : Cfg w) (s : Sys) (acts : List Act) : s.runM c (acts.map fun a => (a, .none)) = s.run c acts := by
  have hstep : ∀ (s : Sys) a, s.stepM c (a, .none) = s.step c a := by
    intro s a
    cases a with
    | commit d =>
      simp only [Sys.stepM, Sys.step, commitM_none]
      cases s.enc.commit c.gf c.dbg d <;> rfl
    | repair =>
      simp only [Sys.stepM, Sys.step]
      rw [show decide (Mem.none ≠ Mem.none) = false from rfl, generateRepairM_false]
      cases s.enc.generateRepair c.gf c.dbg <;> rfl
    | ack i =>
      simp only [Sys.stepM, Sys.step]
      cases s.dec.out[i]? with
      | none => rfl
      | some a =>
        simp only [Enc.notifyM, ne_eq, not_true_eq_false, decide_false, Bool.false_and, Bool.false_eq_true, if_false]
        cases s.enc.notify c.F c.dbg (writeAck a).flatten <;> rfl
    | deliver i =>
      simp only [Sys.stepM]
      split
      · rw [if_pos trivial]
      · rfl
    | _ => rfl
  unfold Sys.runM Sys.run
  induction acts generalizing s with
  | nil => rfl
  | cons a t ih =>
    rw [List.map_cons, List.foldlM_cons, List.foldlM_cons, hstep]
    cases s.step c a with
    | error f => rfl
    | ok s1 => exact ih s1

/-- The oldest source leaves the window. -/
theorem EncInv.pop {data : Nat → List Byte} {ems : List Em} {A : Set Nat} {n : Nat} {e : Enc} (h : EncInv gf data ems A n e) :
    EncInv gf data ems A n { e with sources := e.sources.tail } := by
  have hwin : ({ e with sources := e.sources.tail } : Enc).win = e.win.tail := by simp [Enc.win, List.map_tail]
  have hsub : ∀ x ∈ e.win.tail, x ∈ e.win := fun x hx => List.mem_of_mem_tail hx
  constructor
  · rw [hwin]; exact h.srcSorted.sublist (List.tail_sublist _)
  · rw [hwin]
    show e.sources.tail = _
    rw [List.map_tail, ← h.srcs]
  · rw [hwin]; exact fun x hx => h.srcLt x (hsub x hx)
  · exact h.dataOk
  · exact h.outLen
  · exact h.rend
  · exact h.emLt
  · exact h.repLt
  · exact h.repBound
  · exact h.ridMono
  · intro em hem x hx
    rw [hwin]
    have hso := h.srcSorted
    rcases h.f1w em hem x hx with hg | hg | hg
    · cases hw : e.win with
      | nil => rw [hw] at hg; cases hg
      | cons a u =>
        rw [hw] at hg hso
        rcases List.mem_cons.1 hg with rfl | hg
        · exact .inr (.inr fun y hy => (List.pairwise_cons.1 hso).1 y hy)
        · exact .inl hg
    · exact .inr (.inl hg)
    · exact .inr (.inr fun y hy => hg y (hsub y hy))
  · exact h.f1
  · rw [hwin]; exact fun rid W hem y hy => h.f2w rid W hem y (hsub y hy)
  · exact h.f2
  · exact h.later

theorem repair_bytes_ne (r : ERepair) : (EPkt.repair r).bytes ≠ [] := by
  simp [EPkt.bytes, EPkt.chunks, writeRepair, beBytes]

theorem generateAckM_inv {K : Set Nat} {d : NDec} (h : AckInv K d) (k : Nat) (hh : ∀ x ∈ d.det.sources.keys, x ∈ K) : AckInv K (d.generateAckM k) := by
  refine ⟨foldl_setInsert_sorted _ _ h.sorted, fun x hx => ?_, h.packets, h.out⟩
  rcases (foldl_setInsert_mem _ _ _).1 hx with hx | hx
  · exact h.ids x hx
  · exact hh x (List.mem_of_mem_take hx)

theorem maybeAckM_inv {K : Set Nat} {d : NDec} (h : AckInv K d) (clk : Clock) (k : Nat) (hh : ∀ x ∈ d.det.sources.keys, x ∈ K) :
    (d.maybeAckM clk k).det = d.det ∧ (d.maybeAckM clk k).data = d.data ∧ AckInv K (d.maybeAckM clk k) := by
  have h' : AckInv K { d with ticks := d.ticks + 1 } := h.congr rfl h.packets rfl
  unfold NDec.maybeAckM
  split
  · exact ⟨rfl, rfl, generateAckM_inv h k hh⟩
  · split
    · simp only
      split
      · exact ⟨rfl, rfl, generateAckM_inv h' k hh⟩
      · exact ⟨rfl, rfl, h'⟩
    · exact ⟨rfl, rfl, h⟩

theorem SysInv.stepM [Fact (0 < w)] (hc : c.Ok) {data : Nat → List Byte} {ems : List Em} {A : Set Nat} {ρ L : Nat} {W K : Set Nat}
    (h : SysInv c io data ems A ρ L W K s) (hag : Agree data s.committed) (a : Act) (m : Mem) (ha : Allowed c s a) (hm : MemSafe (a, m))
    (hd : ∀ d, a = .commit d → m = .none → data s.committed.length = d) :
    ∃ s' ems' A' ρ' L' W' K', s.stepM c (a, m) = .ok s' ∧ SysInv c io data ems' A' ρ' L' W' K' s' := by
  have none : m = .none → ∃ s' ems' A' ρ' L' W' K', s.stepM c (a, m) = .ok s' ∧ SysInv c io data ems' A' ρ' L' W' K' s' := by
    rintro rfl
    obtain ⟨s', new, A', ρ', L', W', K', h1, h2, -⟩ := h.step hc hag a ha (fun d e => hd d e rfl)
    have e := C100_model c s [a]
    simp only [List.map_cons, List.map_nil, Sys.runM, Sys.run, List.foldlM_cons, List.foldlM_nil, bind_pure] at e
    exact ⟨s', _, A', ρ', L', W', K', by rw [e]; exact h1, h2⟩
  have other : s.stepM c (a, m) = s.step c a → (∀ d, a ≠ .commit d) →
      ∃ s' ems' A' ρ' L' W' K', s.stepM c (a, m) = .ok s' ∧ SysInv c io data ems' A' ρ' L' W' K' s' := by
    intro e hn
    obtain ⟨s', new, A', ρ', L', W', K', h1, h2, -⟩ := h.step hc hag a ha (fun d e => absurd e (hn d))
    exact ⟨s', _, A', ρ', L', W', K', by rw [e]; exact h1, h2⟩
  by_cases hmn : m = .none
  · exact none hmn
  cases a with
  | commit d =>
    rcases hm with rfl | rfl
    · exact absurd rfl hmn
    · obtain ⟨⟨d0, d1, d2⟩, -, -⟩ := ha
      have hfull : (!(s.enc.sources.length == s.enc.windowSize && s.enc.sources.isEmpty)) = true := by
        have := h.ws
        cases hs : s.enc.sources with
        | nil => simp; omega
        | cons a t => simp
      have hst : s.stepM c (.commit d, .node) =
          .ok { s with enc := { s.enc with sources := if s.enc.sources.length = s.enc.windowSize then s.enc.sources.tail else s.enc.sources } } := by
        simp only [Sys.stepM, Enc.commitM]
        rw [cassert_true _ (by simp only [decide_eq_true_eq]; omega),
          cassert_true _ (by simp only [decide_eq_true_eq]; by_cases e : w = 16 <;> [(subst e; right; omega); (left; exact e)]),
          cassert_true _ (by simp only [decide_eq_true_eq]; by_cases e : w = 32 <;> [(subst e; right; omega); (left; exact e)]), hfull]
        rfl
      refine ⟨_, ems ++ [], A, ρ, L, W, K, hst, ?_⟩
      have hE : EncInv c.gf data (ems ++ []) A s.committed.length { s.enc with
          sources := if s.enc.sources.length = s.enc.windowSize then s.enc.sources.tail else s.enc.sources } := by
        rw [List.append_nil]
        split
        · exact h.enc.pop
        · exact h.enc
      exact h.withEnc (Nat.le_refl _) h.curLt hE h.cur h.rep h.rate h.ws h.ackK
  | repair =>
    have hst : s.stepM c (.repair, m) = .ok s := by
      simp only [Sys.stepM]
      rw [show decide (m ≠ .none) = true from decide_eq_true hmn, C100_repair s.enc ha.1]
      rfl
    exact ⟨s, ems, A, ρ, L, W, K, hst, h⟩
  | ack j =>
    cases hj : s.dec.out[j]? with
    | none => exact ⟨s, ems, A, ρ, L, W, K, by simp only [Sys.stepM, hj]; rfl, h⟩
    | some k =>
      have hst : s.stepM c (.ack j, m) = .ok { s with enc := { s.enc with nbAcks := s.enc.nbAcks + 1 } } := by
        simp only [Sys.stepM, hj]
        rw [show decide (m ≠ .none) = true from decide_eq_true hmn, C100_ack s.enc k]
        rfl
      exact ⟨_, ems ++ [], A, ρ, L, W, K, hst, h.param rfl rfl rfl rfl rfl h.rate h.ws⟩
  | setRate n => exact other rfl (by simp)
  | setWindow n => exact other rfl (by simp)
  | setAdaptive b => exact other rfl (by simp)
  | setSystematic b => exact other rfl (by simp)
  | deliver i =>
    cases hi : s.enc.out[i]? with
    | none => exact other (by simp only [Sys.stepM, hi]) (by simp)
    | some p =>
      cases p with
      | source src => exact other (by simp only [Sys.stepM, hi]) (by simp)
      | repair r =>
        have hst : s.stepM c (.deliver i, m) = .ok { s with dec := { s.dec with
            nbRepairs := s.dec.nbRepairs + 1, ackPackets := (s.dec.ackPackets + 1) % 2 ^ 16 } } := by
          simp only [Sys.stepM, hi]
          rw [if_neg hmn, C100_read s.dec _ (repair_bytes_ne r)]
          rfl
        exact ⟨_, ems, A, ρ, L, W, K, hst, h.withDec rfl rfl (AckInv.congr h.acks rfl (Nat.mod_lt _ (by decide)) rfl)⟩
  | genAck =>
    cases m with
    | ids k => exact ⟨_, ems, A, ρ, L, W, K, rfl, h.withDec rfl rfl (generateAckM_inv h.acks k (fun x hx => h.dinv.core.src_keys x hx))⟩
    | _ => exact other rfl (by simp)
  | maybeAck =>
    cases m with
    | ids k =>
      obtain ⟨h1, h2, h3⟩ := maybeAckM_inv h.acks c.clk k (fun x hx => h.dinv.core.src_keys x hx)
      exact ⟨_, ems, A, ρ, L, W, K, rfl, h.withDec h1 h2 h3⟩
    | _ => exact other rfl (by simp)
  | setAckNb n => exact other rfl (by simp)
  | setAckPeriod n => exact other rfl (by simp)

theorem stepM_committed [Fact (0 < w)] {s' : Sys} {a : Act} {m : Mem} (hm : MemSafe (a, m)) (hst : s.stepM c (a, m) = .ok s') :
    s'.committed = s.committed ∨ ∃ d, a = .commit d ∧ m = .none ∧ s'.committed = s.committed ++ [d] := by
  cases a with
  | commit d =>
    simp only [Sys.stepM, bind_ok_iff, pure_ok_iff] at hst
    obtain ⟨_, _, rfl⟩ := hst
    rcases hm with rfl | rfl
    · exact .inr ⟨d, rfl, rfl, rfl⟩
    · exact .inl rfl
  | repair =>
    simp only [Sys.stepM, bind_ok_iff, pure_ok_iff] at hst
    obtain ⟨_, _, rfl⟩ := hst
    exact .inl rfl
  | ack j =>
    simp only [Sys.stepM] at hst
    split at hst
    · cases hst; exact .inl rfl
    · simp only [bind_ok_iff, pure_ok_iff] at hst
      obtain ⟨_, _, rfl⟩ := hst
      exact .inl rfl
  | deliver i =>
    simp only [Sys.stepM] at hst
    split at hst
    · split at hst
      · exact .inl ((step_committed hst).trans (List.append_nil _))
      · simp only [bind_ok_iff, pure_ok_iff] at hst
        obtain ⟨_, _, rfl⟩ := hst
        exact .inl rfl
    · exact .inl ((step_committed hst).trans (List.append_nil _))
  | genAck =>
    cases m <;> first | (cases hst; exact .inl rfl) | exact .inl ((step_committed hst).trans (List.append_nil _))
  | maybeAck =>
    cases m <;> first | (cases hst; exact .inl rfl) | exact .inl ((step_committed hst).trans (List.append_nil _))
  | _ =>
    simp only [Sys.stepM] at hst
    exact .inl ((step_committed hst).trans (List.append_nil _))

theorem reachMem_inv [Fact (0 < w)] (hc : c.Ok) (h : ReachMem c io s) :
    ∀ data, Agree data s.committed → ∃ ems A ρ L W K, SysInv c io data ems A ρ L W K s := by
  induction h with
  | init => exact fun data _ => ⟨[], ∅, 0, 0, ∅, ∅, sysInv_init c io data⟩
  | @step s s' a m hr ha hm hst ih =>
    intro data hag
    have hcom := stepM_committed hm hst
    have hpre : Agree data s.committed := by
      rcases hcom with e | ⟨d, -, -, e⟩
      · rw [← e]; exact hag
      · rw [e] at hag; exact hag.prefix
    obtain ⟨ems, A, ρ, L, W, K, hI⟩ := ih data hpre
    have hD : ∀ d, a = .commit d → m = .none → data s.committed.length = d := by
      rintro d rfl rfl
      rcases hcom with e | ⟨d', e1, -, e⟩
      · have := congrArg List.length e
        simp only [Sys.stepM, bind_ok_iff, pure_ok_iff] at hst
        obtain ⟨_, _, rfl⟩ := hst
        simp at this
      · cases e1
        rw [e] at hag
        exact hag _ d (by simp)
    obtain ⟨s2, ems', A', ρ', L', W', K', h1, h2⟩ := hI.stepM hc hpre a m ha hm hD
    rw [hst] at h1
    cases h1
    exact ⟨_, _, _, _, _, _, h2⟩

/-- **C100, in part.** The memory of the encoder may run out in any calls, unless it is for a repair within a commit, and so may that for the lists of
sources of repairs that arrive and for the lists of the acks the user asks for: what the decoder hands over was
committed, each datum at most as often as it was committed, with ordering in that order.
Missing: a commit in which there is no memory for a repair (`C100_false`), other allocations of the decoder (`C100_false_decoder`, `C100_false_links`). -/
theorem C100_integrity_partial (hc : c.Ok) (h : ReachMem c io s) :
    (∀ d ∈ s.dec.data, d ∈ s.committed) ∧ (∀ d, s.dec.data.count d ≤ s.committed.count d) ∧ (io = true → s.dec.data.Sublist s.committed) := by
  have := fact_of_valid hc.width
  obtain ⟨ems, A, ρ, L, W, K, hI⟩ := reachMem_inv hc h _ (comData_agree s)
  refine ⟨fun d hd => (hI.subperm rfl).subset hd, fun d => (hI.subperm rfl).count_le d, ?_⟩
  rintro rfl
  exact hI.sublist rfl

/-- **C100, in part.** And no later call fails for any other reason, nor throws any other exception. -/
theorem C100_no_fault_partial (hc : c.Ok) (h : ReachMem c io s) (a : Act) (m : Mem) (ha : Allowed c s a) (hm : MemSafe (a, m)) :
    ∃ s', s.stepM c (a, m) = .ok s' ∧ s'.errs = 0 := by
  have := fact_of_valid hc.width
  obtain ⟨data, hA, hD⟩ : ∃ data, Agree data s.committed ∧ ∀ d, a = .commit d → data s.committed.length = d := by
    cases a with
    | commit d =>
      refine ⟨fun x => (s.committed ++ [d]).getD x [], ?_, ?_⟩
      · intro x e hx
        simp only
        rw [List.getD_eq_getElem?_getD, List.getElem?_append_left (getElem?_lt hx), hx]; rfl
      · intro e he
        cases he
        simp
    | _ => exact ⟨_, comData_agree s, by intro d hd; cases hd⟩
  obtain ⟨ems, A, ρ, L, W, K, hI⟩ := reachMem_inv hc h data hA
  obtain ⟨s', _, _, _, _, _, _, h1, h2⟩ := hI.stepM hc hA a m ha hm (fun d e _ => hD d e)
  exact ⟨s', h1, h2.errs⟩

/-- **C100, in part.** Nor is anything acknowledged that the decoder does not have. -/
theorem C100_acks_partial (hc : c.Ok) (h : ReachMem c io s) : ∀ a ∈ s.dec.out, ∀ x ∈ a.ids, s.dec.det.Knows x := by
  have := fact_of_valid hc.width
  obtain ⟨ems, A, ρ, L, W, K, hI⟩ := reachMem_inv hc h _ (comData_agree s)
  exact fun a ha x hx => (hI.knows_iff x).2 ((hI.acks.out a ha).2.1 x hx)

instance (x : Act × Mem) : Decidable (MemSafe x) := by
  unfold MemSafe; split <;> infer_instance

/-- Run a schedule in which allocations fail, as far as it is one of those of `ReachMem`. -/
def runMem (c : Cfg w) : Sys → List (Act × Mem) → Option Sys
  | s, [] => some s
  | s, (a, m) :: t =>
    if allowedB c s a = true ∧ MemSafe (a, m) then
      match s.stepM c (a, m) with
      | .ok s' => runMem c s' t
      | .error _ => none
    else none

theorem reachMem_of_run {acts : List (Act × Mem)} {s' : Sys} (hs : ReachMem c io s) (h : runMem c s acts = some s') : ReachMem c io s' := by
  induction acts generalizing s with
  | nil => cases h; exact hs
  | cons x t ih =>
    obtain ⟨a, m⟩ := x
    unfold runMem at h
    split at h
    · next hb =>
      split at h
      · next s1 h1 => exact ih (.step hs (allowed_of_B hb.1) hb.2 h1) h
      · cases h
    · cases h

/-- A window of two sources; no memory for a third one, twice, for a repair, for the list of an ack,
and for an ack that arrives.  Then there is.  Source 2 is lost, there is
no memory for the repair that arrives, and source 2 is decoded from a copy of it. -/
def memDemo : List (Act × Mem) :=
  [(.setRate 100, .none), (.setWindow 2, .none), (.commit [1], .none), (.commit [2], .none), (.deliver 0, .none), (.deliver 1, .none), (.commit [3], .node),
   (.repair, .first), (.commit [3], .node), (.genAck, .ids 1), (.maybeAck, .ids 2), (.genAck, .none), (.ack 0, .node), (.commit [3], .none), (.repair, .none), (.deliver 3, .node), (.deliver 3, .none)]

example (dbg io : Bool) : ∃ s, ReachMem (cfg8 dbg) io s ∧ s.dec.data = [[1], [2], [3]] ∧ s.committed = [[1], [2], [3]] ∧
    s.dec.out.map (·.ids) = [[0, 1]] := by
  have h : (runMem (cfg8 dbg) (Sys.init (cfg8 dbg).clk io) memDemo).any
      (fun s => decide (s.dec.data = [[1], [2], [3]] ∧ s.committed = [[1], [2], [3]] ∧ s.dec.out.map (·.ids) = [[0, 1]])) = true := by revert dbg io; decide +kernel
  cases hs : runMem (cfg8 dbg) (Sys.init (cfg8 dbg).clk io) memDemo with
  | none => rw [hs] at h; cases h
  | some s =>
    rw [hs] at h
    exact ⟨s, reachMem_of_run .init hs, of_decide_eq_true h⟩

/-! ## The limit is needed -/

/-- There is no memory for the automatic repair of the first commit; the user gives the datum again.  Packets: 0 and 1 sources, 2 the repair. -/
def memRetry : List (Act × Mem) :=
  [(.setRate 1, .none), (.commit [7], .second), (.commit [7], .none), (.deliver 2, .none)]

/-- **C100 fails** when there is no memory for the automatic repair of a commit: if the user gives the datum again, the two copies cancel out in the next
repair, and a decoder that gets this repair alone hands over an empty datum. -/
theorem C100_false (dbg : Bool) : (Sys.runM (cfg8 dbg) (Sys.init (cfg8 dbg).clk false) memRetry).toOption.map
    (fun s => (s.dec.data, s.committed, s.errs)) = some ([[]], [[7], [7]], 0) := by
  revert dbg; decide +kernel

/-- The user gives the next datum instead. -/
def memNext : List (Act × Mem) :=
  [(.setRate 1, .none), (.commit [7], .second), (.commit [9], .none), (.deliver 0, .none), (.deliver 1, .none), (.deliver 2, .none)]

/-- **C100 fails** too if the user goes on with the next datum: it is sent under the same number, and never handed over though all packets arrive. -/
theorem C100_false_next (dbg : Bool) : (Sys.runM (cfg8 dbg) (Sys.init (cfg8 dbg).clk false) memNext).toOption.map
    (fun s => (s.dec.data, s.committed, s.hist)) = some ([[7]], [[7], [9]], [0, 1, 2]) := by
  revert dbg; decide +kernel

/-- A code that is not systematic, and no memory for the repair that takes the place of the source. -/
def memFirst : List (Act × Mem) :=
  [(.setSystematic false, .none), (.commit [7], .first), (.commit [7], .none), (.deliver 0, .none)]

/-- **C100 fails** too for the repair that a code that is not systematic sends for each datum. -/
theorem C100_false_first (dbg : Bool) : (Sys.runM (cfg8 dbg) (Sys.init (cfg8 dbg).clk false) memFirst).toOption.map
    (fun s => (s.dec.data, s.committed)) = some ([[]], [[7], [7]]) := by
  revert dbg; decide +kernel

/-! ## The decoder -/

/-- **C100 fails** for a decoder, of any field, that keeps no repairs: if there is no memory to keep a source that arrives, its datum has been handed
over, and it is handed over again when a copy of the packet arrives. -/
theorem C100_false_decoder (gf : GF w) (dbg : Bool) (s : Dec) (src : DSource) (hio : s.inOrder = false) (hr : s.repairs = []) (hm : s.missing = [])
    (hl : ¬ s.Outdated src.id) (hn : ¬ s.Holds src.id) :
    ∃ s1 s2, s.onSourceM gf dbg src = .ok (s1, true) ∧ s1.sources = s.sources ∧ s1.onSource gf dbg src = .ok s2 ∧
      s2.handed = s.handed ++ [src.id, src.id] ∧ s2.log.map (·.data) = s.log.map (·.data) ++ [src.sym, src.sym] := by
  have hf : s.fuel = 6 := by unfold Dec.fuel; rw [hr, hm]; rfl
  have hl' : ¬ s.lastId.any (fun l => decide (src.id < l)) := by
    intro h
    apply hl
    cases hs : s.lastId with
    | none => rw [hs] at h; cases h
    | some l => rw [hs] at h; exact ⟨l, hs, of_decide_eq_true h⟩
  have hn' : s.sources.has src.id = false := by
    rw [Bool.eq_false_iff]
    intro h
    exact hn ((OMap.has_iff _ _).1 h)
  refine ⟨s.callback src, _, ?_, rfl, onSource_bare gf dbg (s.callback src) src hio hr hm hl' hn', ?_, ?_⟩
  · unfold Dec.onSourceM
    rw [if_neg hl', if_neg (by rw [hn']; decide), hf]
    simp [addSourceHead, Dec.giveNew, hio, Dec.callback, hm, OMap.get?, OMap.keys, scanMissing, bind, Except.bind, pure, Except.pure]
  · simp [Dec.handed, Dec.callback]
  · simp [Dec.callback]

/-- A new decoder, any source. -/
example (gf : GF w) (dbg : Bool) (src : DSource) : ∃ s1 s2, (Dec.init false).onSourceM gf dbg src = .ok (s1, true) ∧ s1.sources = [] ∧
    s1.onSource gf dbg src = .ok s2 ∧ s2.handed = [src.id, src.id] := by
  obtain ⟨s1, s2, h1, h2, h3, h4, -⟩ := C100_false_decoder gf dbg (Dec.init false) src rfl rfl rfl (by simp [Dec.Outdated, Dec.init])
    (by simp [Dec.Holds, Dec.init, OMap.keys])
  exact ⟨s1, s2, h1, h2, h3, h4⟩

/-- A repair of sources 0 to 2 and one of sources 3 to 5, none of which arrive. -/
def memLinks : List Act :=
  [.setRate 100, .setWindow 3, .commit [1], .commit [2], .commit [3], .repair, .commit [4], .commit [5], .commit [6], .repair]

/-- The decoder that has the first repair, but not all of its links, and what it does with the second one. -/
def linksDemo (dbg io : Bool) : Option (Option Fault) :=
  match (reached (cfg8 dbg) io memLinks).enc.out[3]?, (reached (cfg8 dbg) io memLinks).enc.out[7]? with
  | some (EPkt.repair r1), some (EPkt.repair r2) =>
    match (reached (cfg8 dbg) io memLinks).dec.linkM gf8 dbg (cfg8 dbg).clk 1 (EPkt.repair r1).bytes with
    | .ok (d, true) =>
      match d.notify gf8 dbg (cfg8 dbg).clk (EPkt.repair r2).bytes with
      | .ok _ => some none
      | .error f => some (some f)
    | _ => none
  | _, _ => none

/-- **C100 fails** for a decoder: if there is no memory to link a repair with the second of the sources it needs, then the next repair, of later
sources only, makes the decoder read past the end of a map. -/
theorem C100_false_links (dbg io : Bool) : ∃ s r1 r2 d, Reach (cfg8 dbg) io s ∧ EPkt.repair r1 ∈ s.enc.out ∧ EPkt.repair r2 ∈ s.enc.out ∧
    s.dec.linkM gf8 dbg (cfg8 dbg).clk 1 (EPkt.repair r1).bytes = .ok (d, true) ∧
    d.notify gf8 dbg (cfg8 dbg).clk (EPkt.repair r2).bytes = .error (.ub .derefEnd) := by
  have h : linksDemo dbg io = some (some (.ub .derefEnd)) := by revert dbg io; decide +kernel
  unfold linksDemo at h
  split at h
  · next r1 r2 h1 h2 =>
    split at h
    · next d hd =>
      split at h
      · cases h
      · next f hf =>
        cases h
        exact ⟨_, r1, r2, d, reached_reach (by clear h1 h2 hd hf; revert dbg io; decide +kernel), List.mem_of_getElem? h1, List.mem_of_getElem? h2, hd, hf⟩
    · cases h
  · cases h

/-- **C100.** An ack for which the memory runs out can be asked for again: the second call sends the ack that the first one would have sent. -/
theorem C100_ack_retry (d : NDec) (k : Nat) (h : d.ackIds.Pairwise (· < ·)) : (d.generateAckM k).generateAck = d.generateAck := by
  have e : d.det.sources.keys.foldl setInsert ((d.det.sources.keys.take k).foldl setInsert d.ackIds) = d.det.sources.keys.foldl setInsert d.ackIds := by
    refine sorted_ext (foldl_setInsert_sorted _ _ (foldl_setInsert_sorted _ _ h)) (foldl_setInsert_sorted _ _ h) (fun x => ?_)
    simp only [foldl_setInsert_mem]
    constructor
    · rintro ((hx | hx) | hx)
      · exact .inl hx
      · exact .inr (List.mem_of_mem_take hx)
      · exact .inr hx
    · rintro (hx | hx)
      · exact .inl (.inl hx)
      · exact .inr hx
  unfold NDec.generateAck NDec.generateAckWith NDec.generateAckM
  simp only [e]

/-- A decoder that has two sources, and no memory for the second one. -/
example (dbg io : Bool) : ∃ s, Reach (cfg8 dbg) io s ∧ s.dec.ackIds.Pairwise (· < ·) ∧ (s.dec.generateAckM 1).ackIds = [0] ∧
    (s.dec.generateAckM 1).generateAck.out.map (·.ids) = [[0, 1]] :=
  ⟨reached (cfg8 dbg) io [.setRate 100, .commit [1], .commit [2], .deliver 0, .deliver 1], reached_reach (by revert dbg io; decide +kernel),
    by revert dbg io; decide +kernel, by revert dbg io; decide +kernel, by revert dbg io; decide +kernel⟩

end Netcode
