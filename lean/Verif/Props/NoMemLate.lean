import Verif.Props.AckThrowRun
import Verif.Proofs.AckCalls
import Verif.Proofs.LateCheck

/-!
# C74 and C100 with late sources
-/

namespace Netcode

variable {w : Nat} {c : Cfg w} {io : Bool} {s : Sys}

/-- Changes of the encoder. -/
theorem GInv.withEnc [Fact (0 < w)] {data : Nat → List Byte} {m : Sys} (h : GInv c io data m) {e : Enc}
    (f : ∀ {b : Bool} {ems : List Em} {A : Set Nat} {ρ L : Nat} {W K : Set Nat} {s : Sys}, s.enc = m.enc → s.committed = m.committed →
      SysInv c b data ems A ρ L W K s → SysInv c b data (ems ++ []) A ρ L W K { s with enc := e }) : GInv c io data { m with enc := e } := by
  cases io with
  | false =>
    obtain ⟨ems, A, ρ, L, W, K, h⟩ := h
    exact ⟨_, _, _, _, _, _, f rfl rfl h⟩
  | true =>
    obtain ⟨ems, A, ρ, L, W, K, u, h⟩ := h
    exact ⟨_, _, _, _, _, _, u, f (s := m.hyb u) rfl rfl h.inv, h.ord, h.held, h.dataLog⟩

theorem GInv.stepM [Fact (0 < w)] (hc : c.Ok) {data : Nat → List Byte} (h : GInv c io data s) (hag : Agree data s.committed) (a : Act) (m : Mem)
    (ha : AllowedLate c s a) (hm : MemSafe (a, m)) (hd : ∀ d, a = .commit d → m = .none → data s.committed.length = d) :
    ∃ s', s.stepM c (a, m) = .ok s' ∧ GInv c io data s' := by
  have none : m = .none → ∃ s', s.stepM c (a, m) = .ok s' ∧ GInv c io data s' := by
    rintro rfl
    obtain ⟨s', h1, h2⟩ := h.step hc hag a ha (fun d e => hd d e rfl)
    have e := C100_model c s [a]
    simp only [List.map_cons, List.map_nil, Sys.runM, Sys.run, List.foldlM_cons, List.foldlM_nil, bind_pure] at e
    exact ⟨s', by rw [e]; exact h1, h2⟩
  have other : s.stepM c (a, m) = s.step c a → (∀ d, a ≠ .commit d) → ∃ s', s.stepM c (a, m) = .ok s' ∧ GInv c io data s' := by
    intro e hn
    obtain ⟨s', h1, h2⟩ := h.step hc hag a ha (fun d e => absurd e (hn d))
    exact ⟨s', by rw [e]; exact h1, h2⟩
  by_cases hmn : m = .none
  · exact none hmn
  cases a with
  | commit d =>
    rcases hm with rfl | rfl
    · exact absurd rfl hmn
    · have ha : Allowed c s (.commit d) := ha
      obtain ⟨⟨d0, d1, d2⟩, -, -⟩ := ha
      have hfull : (!(s.enc.sources.length == s.enc.windowSize && s.enc.sources.isEmpty)) = true := by
        obtain ⟨u, ems, A, ρ, L, W, K, hv⟩ := h.view
        have := hv.ws
        have : s.enc.windowSize ≠ 0 := this
        cases hs : s.enc.sources with
        | nil => simp; omega
        | cons a t => simp
      have hst : s.stepM c (.commit d, .node) =
          .ok { s with enc := { s.enc with sources := if s.enc.sources.length = s.enc.windowSize then s.enc.sources.tail else s.enc.sources } } := by
        simp only [Sys.stepM, Enc.commitM]
        rw [cassert_true _ (by simp only [decide_eq_true_eq]; omega),
          cassert_true _ (by simp only [decide_eq_true_eq]; by_cases e : w = 16 <;> [(subst e; right; omega); (left; exact e)]),
          cassert_true _ (by simp only [decide_eq_true_eq]; by_cases e : w = 32 <;> [(subst e; right; omega); (left; exact e)]), hfull]
        rfl
      refine ⟨_, hst, h.withEnc ?_⟩
      intro b ems A ρ L W K t he ht hI
      have hE : EncInv c.gf data (ems ++ []) A t.committed.length { s.enc with
          sources := if s.enc.sources.length = s.enc.windowSize then s.enc.sources.tail else s.enc.sources } := by
        rw [List.append_nil, ← he]
        split
        · exact hI.enc.pop
        · exact hI.enc
      exact hI.withEnc (Nat.le_refl _) hI.curLt hE (by rw [← he]; exact hI.cur) (by rw [← he]; exact hI.rep) (by rw [← he]; exact hI.rate)
        (by rw [← he]; exact hI.ws) hI.ackK
  | repair =>
    have ha : Allowed c s .repair := ha
    have hst : s.stepM c (.repair, m) = .ok s := by
      simp only [Sys.stepM]
      rw [show decide (m ≠ .none) = true from decide_eq_true hmn, C100_repair s.enc ha.1]
      rfl
    exact ⟨s, hst, h⟩
  | ack j =>
    cases hj : s.dec.out[j]? with
    | none => exact ⟨s, by simp only [Sys.stepM, hj]; rfl, h⟩
    | some k =>
      have hst : s.stepM c (.ack j, m) = .ok { s with enc := { s.enc with nbAcks := s.enc.nbAcks + 1 } } := by
        simp only [Sys.stepM, hj]
        rw [show decide (m ≠ .none) = true from decide_eq_true hmn, C100_ack s.enc k]
        rfl
      refine ⟨_, hst, h.withEnc ?_⟩
      intro b ems A ρ L W K t he ht hI
      rw [← he]
      exact hI.param rfl rfl rfl rfl rfl hI.rate hI.ws
  | setRate n => exact other rfl (by simp)
  | setWindow n => exact other rfl (by simp)
  | setAdaptive b => exact other rfl (by simp)
  | setSystematic b => exact other rfl (by simp)
  | deliver i =>
    cases hi : s.enc.out[i]? with
    | none => exact other (by simp only [Sys.stepM, hi]) (by simp)
    | some p =>
      cases p with
      | source src => exact other (by simp only [Sys.stepM, hi]) (by simp)
      | repair r =>
        have hst : s.stepM c (.deliver i, m) = .ok { s with dec := { s.dec with
            nbRepairs := s.dec.nbRepairs + 1, ackPackets := (s.dec.ackPackets + 1) % 2 ^ 16 } } := by
          simp only [Sys.stepM, hi]
          rw [if_neg hmn, C100_read s.dec _ (repair_bytes_ne r)]
          rfl
        exact ⟨_, hst, h.withDec rfl rfl (fun K _ hA => hA.congr rfl (Nat.mod_lt _ (by decide)) rfl)⟩
  | genAck =>
    cases m with
    | ids k => exact ⟨_, rfl, h.withDecK rfl rfl (fun K _ hK hA => generateAckM_inv hA k hK)⟩
    | _ => exact other rfl (by simp)
  | maybeAck =>
    cases m with
    | ids k =>
      have hf : (s.dec.maybeAckM c.clk k).det = s.dec.det ∧ (s.dec.maybeAckM c.clk k).data = s.dec.data := by
        unfold NDec.maybeAckM
        split
        · exact ⟨rfl, rfl⟩
        · split
          · simp only
            split <;> exact ⟨rfl, rfl⟩
          · exact ⟨rfl, rfl⟩
      exact ⟨_, rfl, h.withDecK hf.1 hf.2 (fun K _ hK hA => (maybeAckM_inv hA c.clk k hK).2.2)⟩
    | _ => exact other rfl (by simp)
  | setAckNb n => exact other rfl (by simp)
  | setAckPeriod n => exact other rfl (by simp)

theorem ginv_of_mem [Fact (0 < w)] (hc : c.Ok) (h : ReachMemLate c io s) : ∀ data, Agree data s.committed → GInv c io data s := by
  induction h with
  | init => exact fun data hag => ginv_of_late hc .init data hag
  | @step s s' a m hr ha hm hst ih =>
    intro data hag
    have hcom := stepM_committed hm hst
    have hpre : Agree data s.committed := by
      rcases hcom with e | ⟨d, -, -, e⟩
      · rw [← e]; exact hag
      · rw [e] at hag; exact hag.prefix
    have hD : ∀ d, a = .commit d → m = .none → data s.committed.length = d := by
      rintro d rfl rfl
      rcases hcom with e | ⟨d', e1, -, e⟩
      · have := congrArg List.length e
        simp only [Sys.stepM, bind_ok_iff, pure_ok_iff] at hst
        obtain ⟨_, _, rfl⟩ := hst
        simp at this
      · cases e1
        rw [e] at hag
        exact hag _ d (by simp)
    obtain ⟨s2, h1, h2⟩ := (ih data hpre).stepM hc hpre a m ha hm hD
    rw [hst] at h1
    cases h1
    exact h2

/-- **C100, in part**, with late sources: memory may run out as in `C100_integrity_partial`.  Every datum handed over is the one committed under its
number, each number once, with ordering in that order; acks list sources that were committed, and without ordering only ones the decoder knows. -/
theorem C100_late_partial (hc : c.Ok) (h : ReachMemLate c io s) :
    (∀ ev ∈ s.dec.det.log, s.committed[ev.id]? = some ev.data) ∧ s.dec.data = s.dec.det.log.map (·.data) ∧
      s.dec.det.handed.Nodup ∧ (io = true → s.dec.data.Sublist s.committed) ∧
      ∀ a ∈ s.dec.out, ∀ x ∈ a.ids, x < s.committed.length ∧ (io = false → s.dec.det.Knows x) := by
  have := fact_of_valid hc.width
  have hG := ginv_of_mem hc h (comData s) (comData_agree s)
  cases io with
  | false =>
    obtain ⟨ems, A, ρ, L, W, K, hI⟩ := hG
    refine ⟨fun ev hev => ?_, hI.dataLog, hI.handed_nodup, fun h0 => (by cases h0), fun a ha x hx => ?_⟩
    · have h1 := hI.dinv.log.logData ev hev
      have h2 : ev.id < s.committed.length := hI.handed_lt (List.mem_map_of_mem hev)
      rw [h1, List.getElem?_eq_getElem h2]
      unfold comData
      rw [List.getD_eq_getElem?_getD, List.getElem?_eq_getElem h2]
      rfl
    · have hx := (hI.acks.out a ha).2.1 x hx
      exact ⟨hI.knownLt x hx, fun _ => (hI.knows_iff x).2 hx⟩
  | true =>
    obtain ⟨ems, A, ρ, L, W, K, u, hI⟩ := hG
    refine ⟨fun ev hev => ?_, hI.dataLog, hI.ord.logSorted.imp (fun h => Nat.ne_of_lt h), fun _ => hI.sublist rfl, fun a ha x hx => ?_⟩
    · have h1 := hI.logData ev hev
      have h2 : ev.id < s.committed.length := hI.handed_lt (List.mem_map_of_mem hev)
      rw [h1, List.getElem?_eq_getElem h2]
      unfold comData
      rw [List.getD_eq_getElem?_getD, List.getElem?_eq_getElem h2]
      rfl
    · have hx := (hI.inv.acks.out a ha).2.1 x hx
      exact ⟨hI.inv.knownLt x hx, fun h0 => by cases h0⟩

/-- **C100, in part**, with late sources: no later call fails for any other reason, nor throws any other exception. -/
theorem C100_no_fault_late_partial (hc : c.Ok) (h : ReachMemLate c io s) (a : Act) (m : Mem) (ha : AllowedLate c s a) (hm : MemSafe (a, m)) :
    ∃ s', s.stepM c (a, m) = .ok s' ∧ s'.errs = 0 := by
  have := fact_of_valid hc.width
  have hag : Agree (fun x => if x = s.committed.length then (match a with | .commit d => d | _ => []) else comData s x) s.committed := by
    intro x d hx
    have hlt := getElem?_lt hx
    show (if x = s.committed.length then _ else _) = d
    rw [if_neg (Nat.ne_of_lt hlt)]
    exact comData_agree s x d hx
  obtain ⟨s', h1, h2⟩ := (ginv_of_mem hc h _ hag).stepM hc hag a m ha hm (by rintro d rfl -; simp)
  exact ⟨s', h1, h2.errs⟩

theorem reachMemLate_of_throw (h : ReachThrowLate c io s) : ReachMemLate c io s := by
  induction h with
  | init => exact .init
  | @step s s' a t hr ha hst ih =>
    obtain ⟨m, hm, e⟩ := stepA_eq (c := c) s a t
    rw [e] at hst
    exact .step ih ha hm hst

/-- **C74, in part**, with late sources: the packet handler may throw as in `C74_integrity_partial`. -/
theorem C74_late_partial (hc : c.Ok) (h : ReachThrowLate c io s) :
    (∀ ev ∈ s.dec.det.log, s.committed[ev.id]? = some ev.data) ∧ s.dec.data = s.dec.det.log.map (·.data) ∧
      s.dec.det.handed.Nodup ∧ (io = true → s.dec.data.Sublist s.committed) ∧
      ∀ a ∈ s.dec.out, ∀ x ∈ a.ids, x < s.committed.length ∧ (io = false → s.dec.det.Knows x) :=
  C100_late_partial hc (reachMemLate_of_throw h)

/-- **C74, in part**, with late sources: no call fails. -/
theorem C74_no_fault_late_partial (hc : c.Ok) (h : ReachThrowLate c io s) (a : Act) (t : Bool) (ha : AllowedLate c s a) :
    ∃ s', s.stepA c (a, t) = .ok s' ∧ s'.errs = 0 := by
  obtain ⟨m, hm, e⟩ := stepA_eq (c := c) s a t
  rw [e]
  exact C100_no_fault_late_partial hc (reachMemLate_of_throw h) a m ha hm

/-- Run a schedule in which allocations fail, as far as it is one of those of `ReachMemLate`. -/
def runMemLate (c : Cfg w) : Sys → List (Act × Mem) → Option Sys
  | s, [] => some s
  | s, (a, m) :: t =>
    if allowedLateB c s a = true ∧ MemSafe (a, m) then
      match s.stepM c (a, m) with
      | .ok s' => runMemLate c s' t
      | .error _ => none
    else none

theorem reachMemLate_of_run {acts : List (Act × Mem)} {s' : Sys} (hs : ReachMemLate c io s) (h : runMemLate c s acts = some s') : ReachMemLate c io s' := by
  induction acts generalizing s with
  | nil => cases h; exact hs
  | cons x t ih =>
    obtain ⟨a, m⟩ := x
    unfold runMemLate at h
    split at h
    · next hb =>
      split at h
      · next s1 h1 => exact ih (.step hs (allowedLate_of_B hb.1) hb.2 h1) h
      · cases h
    · cases h

/-- With ordering: a repair of sources 0 and 1 overtakes source 0, which is late.  There is no memory for the repair at first, nor for an ack. -/
def memLate : List (Act × Mem) :=
  [(.setRate 100, .none), (.commit [1], .none), (.commit [2], .none), (.repair, .none), (.deliver 2, .first), (.deliver 2, .none), (.deliver 0, .none),
   (.genAck, .ids 1), (.genAck, .none), (.ack 0, .node), (.ack 0, .none)]

example (dbg : Bool) : ∃ s, ReachMemLate (cfg8 dbg) true s ∧ runMem (cfg8 dbg) (Sys.init (cfg8 dbg).clk true) memLate = none ∧
    s.dec.data = [[1], [2]] ∧ s.dec.out.map (·.ids) = [[0, 1]] ∧ s.enc.window = 0 := by
  have h : (runMemLate (cfg8 dbg) (Sys.init (cfg8 dbg).clk true) memLate).any
      (fun s => decide (runMem (cfg8 dbg) (Sys.init (cfg8 dbg).clk true) memLate = none ∧
        s.dec.data = [[1], [2]] ∧ s.dec.out.map (·.ids) = [[0, 1]] ∧ s.enc.window = 0)) = true := by
    revert dbg; decide +kernel
  cases hs : runMemLate (cfg8 dbg) (Sys.init (cfg8 dbg).clk true) memLate with
  | none => rw [hs] at h; cases h
  | some s =>
    rw [hs] at h
    exact ⟨s, reachMemLate_of_run .init hs, of_decide_eq_true h⟩

end Netcode
