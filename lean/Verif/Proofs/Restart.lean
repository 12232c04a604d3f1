import Verif.Spec.Restart
import Verif.Proofs.SysFacts
import Verif.Proofs.Both
import Verif.Proofs.LateCheck
import Verif.Proofs.Check
import Verif.Proofs.DecHist

/-!
# A new decoder meets the invariant of the system
-/

namespace Netcode

variable {w : Nat}

/-! ## What the encoder emitted before does not influence it -/

/-- The encoder with some packets emitted before. -/
def Enc.behind (pre : List EPkt) (e : Enc) : Enc := { e with out := pre ++ e.out }

theorem generateRepair_after (gf : GF w) (dbg : Bool) (pre : List EPkt) (e : Enc) :
    (e.behind pre).generateRepair gf dbg = (e.generateRepair gf dbg).map (Enc.behind pre) := by
  unfold Enc.generateRepair Enc.behind
  simp only
  cases encodeRepair gf dbg e.curRep e.sources with
  | error f => rfl
  | ok r =>
    simp only [bind, Except.bind]
    cases cassert dbg (decide (0 < r.sym.length)) with
    | error f => rfl
    | ok u => simp [Except.map, pure, Except.pure]

theorem emitNew_after (gf : GF w) (dbg : Bool) (src : ESource) (pre : List EPkt) (e : Enc) :
    Enc.emitNew gf dbg src (e.behind pre) = (Enc.emitNew gf dbg src e).map (Enc.behind pre) := by
  unfold Enc.emitNew
  have : (e.behind pre).systematic = e.systematic := rfl
  rw [this]
  split
  · simp [Except.map, Enc.behind]
  · exact generateRepair_after gf dbg pre e

theorem autoRepair_after (gf : GF w) (dbg : Bool) (pre : List EPkt) (e : Enc) :
    (e.behind pre).autoRepair gf dbg = (e.autoRepair gf dbg).map (Enc.behind pre) := by
  unfold Enc.autoRepair
  have h1 : (e.behind pre).rate = e.rate := rfl
  have h2 : (e.behind pre).curSrc = e.curSrc := rfl
  rw [h1, h2]
  cases ensure (e.rate != 0) .divZero with
  | error f => rfl
  | ok u =>
    simp only [bind, Except.bind]
    split
    · exact generateRepair_after gf dbg pre e
    · rfl

theorem commit_after (gf : GF w) (dbg : Bool) (pre : List EPkt) (e : Enc) (d : List Byte) :
    (e.behind pre).commit gf dbg d = (e.commit gf dbg d).map (Enc.behind pre) := by
  unfold Enc.commit
  have h1 : (e.behind pre).sources = e.sources := rfl
  have h2 : (e.behind pre).windowSize = e.windowSize := rfl
  have h3 : (e.behind pre).curSrc = e.curSrc := rfl
  rw [h1, h2, h3]
  cases cassert dbg (decide (d.length ≠ 0)) with
  | error f => rfl
  | ok u =>
  simp only [bind, Except.bind]
  cases cassert dbg (decide (w ≠ 16 ∨ d.length % 2 = 0)) with
  | error f => rfl
  | ok u =>
  simp only
  cases cassert dbg (decide (w ≠ 32 ∨ d.length % 4 = 0)) with
  | error f => rfl
  | ok u =>
  simp only
  cases ensure (!(e.sources.length == e.windowSize && e.sources.isEmpty)) .derefEnd with
  | error f => rfl
  | ok u =>
  simp only
  generalize (if e.sources.length = e.windowSize then e.sources.tail else e.sources) = win
  have h4 := emitNew_after gf dbg { id := e.curSrc, sym := d } pre { e with sources := win ++ [{ id := e.curSrc, sym := d }] }
  simp only [Enc.behind] at h4
  simp only [Enc.behind]
  rw [h4]
  cases Enc.emitNew gf dbg { id := e.curSrc, sym := d } { e with sources := win ++ [{ id := e.curSrc, sym := d }] } with
  | error f => rfl
  | ok e1 =>
    simp only [Except.map]
    rw [autoRepair_after]
    cases e1.autoRepair gf dbg with
    | error f => rfl
    | ok e2 => rfl

/-! ## A new decoder -/

theorem restart_enc (clk : Clock) (io : Bool) (k : Nat) (s : Sys) :
    s.enc = Enc.behind (s.enc.out.take k) (s.restart clk io k).enc := by
  simp [Sys.restart, Enc.behind]

section
variable [Fact (0 < w)] {c : Cfg w} {io : Bool} {data : Nat → List Byte} {ems : List Em} {A : Set Nat} {ρ L : Nat}
  {W K : Set Nat} {s : Sys} {k : Nat}

/-- The invariant of a system with a new decoder. -/
theorem sysInv_fresh {e : Enc} {com : List (List Byte)} (t : Nat) (io : Bool) (he : EncInv c.gf data ems ∅ com.length e)
    (hc : e.curSrc = com.length) (hlt : com.length < 2 ^ 32) (hr : e.curRep = e.nbSentRepairs) (hrate : e.rate ≠ 0)
    (hws : e.windowSize ≠ 0) :
    SysInv c io data ems ∅ 0 0 ∅ ∅ { enc := e, dec := NDec.again c.clk io t, committed := com, hist := [], errs := 0 } where
  enc := he
  cur := hc
  curLt := hlt
  rep := hr
  rate := hrate
  ws := hws
  dinv := by
    have h := (sysInv_init c io data).dinv
    apply DInv.mono_P (P := Arrived [] []) h
    · rintro rid x ⟨j, hj, _⟩; exact absurd hj (by simp)
    · rintro q hq; exact absurd hq (by simp [Sys.init, NDec.init, Dec.init])
  io := rfl
  histLt := by simp
  newest := Or.inl ⟨by simp, rfl, rfl, rfl⟩
  seen := by simp
  ackK := by simp
  knownLt := by simp
  dataLog := rfl
  acks := ⟨List.Pairwise.nil, by simp [NDec.again, NDec.init], by show (0 : Nat) < 2 ^ 16; decide, by simp [NDec.again, NDec.init]⟩
  errs := rfl

/-- With a decoder that replaces the present one, if all packets of the encoder are gone. -/
theorem SysInv.fresh (h : SysInv c io data ems A ρ L W K s) (io' : Bool) :
    SysInv c io' data [] ∅ 0 0 ∅ ∅ (s.restart c.clk io' s.enc.out.length) := by
  refine sysInv_fresh _ _ ?_ h.cur h.curLt h.rep h.rate h.ws
  have he := h.enc
  refine ⟨he.srcSorted, he.srcs, he.srcLt, he.dataOk, ?_, ?_, ?_, ?_, he.repBound, ?_, ?_, ?_, ?_, ?_, ?_⟩ <;>
    simp

/-- Fewer packets of the encoder may arrive. -/
theorem EncInv.drop {gf : GF w} {n : Nat} {e : Enc} (h : EncInv gf data ems A n e) (k : Nat) :
    EncInv gf data (ems.drop k) A n { e with out := e.out.drop k } where
  srcSorted := h.srcSorted
  srcs := h.srcs
  srcLt := h.srcLt
  dataOk := h.dataOk
  outLen := by simp [h.outLen]
  rend := fun i em p h1 h2 => h.rend (k + i) em p (by simpa using h1) (by simpa using h2)
  emLt := fun em hem => h.emLt em (List.mem_of_mem_drop hem)
  repLt := fun rid W' hem => h.repLt rid W' (List.mem_of_mem_drop hem)
  repBound := h.repBound
  ridMono := fun i j ri rj Wi Wj hij h1 h2 =>
    h.ridMono (k + i) (k + j) ri rj Wi Wj (by omega) (by simpa using h1) (by simpa using h2)
  f1w := fun em hem => h.f1w em (List.mem_of_mem_drop hem)
  f1 := fun i j em rj Wj hij h1 h2 => h.f1 (k + i) (k + j) em rj Wj (by omega) (by simpa using h1) (by simpa using h2)
  f2w := fun rid W' hem => h.f2w rid W' (List.mem_of_mem_drop hem)
  f2 := fun i j ri rj Wi Wj hij h1 h2 =>
    h.f2 (k + i) (k + j) ri rj Wi Wj (by omega) (by simpa using h1) (by simpa using h2)
  later := fun i j em x hij h1 h2 => h.later (k + i) (k + j) em x (by omega) (by simpa using h1) (by simpa using h2)

/-- What every decoder that replaces the present one will meet. -/
def Ready (c : Cfg w) (data : Nat → List Byte) (k : Nat) (s : Sys) : Prop :=
  ∀ io, ∃ ems, SysInv c io data ems ∅ 0 0 ∅ ∅ (s.restart c.clk io k)

theorem Ready.later (h : Ready c data k s) {k' : Nat} (hk : k ≤ k') : Ready c data k' s := by
  intro io
  obtain ⟨ems, hI⟩ := h io
  refine ⟨ems.drop (k' - k), ?_⟩
  have h1 := sysInv_fresh (c := c) s.dec.ticks io (hI.enc.drop (k' - k)) hI.cur hI.curLt hI.rep hI.rate hI.ws
  have h2 : ((s.enc.out.drop k).drop (k' - k)) = s.enc.out.drop k' := by rw [List.drop_drop]; congr 1; omega
  simp only [Sys.restart] at h1 ⊢
  rw [h2] at h1
  exact h1

theorem Ready.congr (h : Ready c data k s) {s' : Sys} (h1 : s'.enc = s.enc) (h2 : s'.committed = s.committed) :
    Ready c data k s' := by
  intro io
  obtain ⟨ems, hI⟩ := h io
  have h3 := sysInv_fresh (c := c) s'.dec.ticks io hI.enc hI.cur hI.curLt hI.rep hI.rate hI.ws
  refine ⟨ems, ?_⟩
  simp only [Sys.restart] at h3 ⊢
  rw [h1, h2]
  exact h3

/-- A call of the encoder that does the same whatever was emitted before. -/
theorem Ready.encStep (h : Ready c data k s) {s' : Sys} {e' : Enc} (hk : k ≤ s.enc.out.length)
    (henc : s'.enc = Enc.behind (s.enc.out.take k) e')
    (hI : ∀ io ems, SysInv c io data ems ∅ 0 0 ∅ ∅ (s.restart c.clk io k) → ∃ new,
      EncInv c.gf data (ems ++ new) ∅ s'.committed.length e' ∧ e'.curSrc = s'.committed.length ∧ s'.committed.length < 2 ^ 32 ∧
        e'.curRep = e'.nbSentRepairs ∧ e'.rate ≠ 0 ∧ e'.windowSize ≠ 0) : Ready c data k s' := by
  intro io
  obtain ⟨ems, h1⟩ := h io
  obtain ⟨new, a1, a2, a3, a4, a5, a6⟩ := hI io ems h1
  refine ⟨ems ++ new, ?_⟩
  have h2 := sysInv_fresh (c := c) s'.dec.ticks io a1 a2 a3 a4 a5 a6
  have h3 : { s'.enc with out := s'.enc.out.drop k } = e' := by
    rw [henc]
    simp [Enc.behind, List.length_take, Nat.min_eq_left hk]
  simp only [Sys.restart]
  rw [h3]
  exact h2

/-- Calls that only change parameters. -/
theorem Ready.param (h : Ready c data k s) (hk : k ≤ s.enc.out.length) {e : Enc} (h1 : e.sources = s.enc.sources)
    (h2 : e.out = s.enc.out) (h3 : e.curRep = s.enc.curRep) (h4 : e.curSrc = s.enc.curSrc)
    (h5 : e.nbSentRepairs = s.enc.nbSentRepairs) (h6 : e.rate ≠ 0) (h7 : e.windowSize ≠ 0) :
    Ready c data k { s with enc := e } := by
  refine h.encStep (e' := { e with out := e.out.drop k }) hk ?_ ?_
  · simp [Enc.behind, ← h2]
  · intro io ems hI
    have hI' := hI.param (e := { e with out := e.out.drop k }) h1 (by simp [Sys.restart, h2]) h3 h4 h5 h6 h7
    exact ⟨[], hI'.enc, hI'.cur, hI'.curLt, hI'.rep, hI'.rate, hI'.ws⟩

/-- A new decoder is met by the same after a step that brings no ack. -/
theorem Ready.step (hc : c.Ok) (h : Ready c data k s) (hk : k ≤ s.enc.out.length) {s' : Sys} {a : Act}
    (hrate : s'.enc.rate ≠ 0) (hws : s'.enc.windowSize ≠ 0) (ha : AllowedLate c s a) (hst : s.step c a = .ok s') (hn : a.isAck = false)
    (hD : ∀ d, a = .commit d → data s.committed.length = d) : k ≤ s'.enc.out.length ∧ Ready c data k s' := by
  cases a with
  | commit d =>
    simp only [Sys.step, bind_ok_iff, pure_ok_iff] at hst
    obtain ⟨e, he, rfl⟩ := hst
    have h0 := he
    rw [restart_enc c.clk true k s, commit_after, map_ok_iff] at h0
    obtain ⟨e', h0, rfl⟩ := h0
    refine ⟨?_, ?_⟩
    · have : (s.enc.out.take k).length = k := by rw [List.length_take]; omega
      simp only [Enc.behind, List.length_append, this]
      omega
    · refine h.encStep (e' := e') hk rfl ?_
      intro io ems hJ
      obtain ⟨s2, new, g1, g2, g3, _⟩ := hJ.commit hc d ha (hD d rfl)
      simp only [Sys.step, bind_ok_iff, pure_ok_iff] at g1
      obtain ⟨e2, g1, rfl⟩ := g1
      have : (s.restart c.clk io k).enc = (s.restart c.clk true k).enc := rfl
      rw [this, h0] at g1
      cases g1
      exact ⟨new, g2.enc, g2.cur, g2.curLt, g2.rep, g2.rate, g2.ws⟩
  | repair =>
    simp only [Sys.step, bind_ok_iff, pure_ok_iff] at hst
    obtain ⟨e, he, rfl⟩ := hst
    have h0 := he
    rw [restart_enc c.clk true k s, generateRepair_after, map_ok_iff] at h0
    obtain ⟨e', h0, rfl⟩ := h0
    refine ⟨?_, ?_⟩
    · have : (s.enc.out.take k).length = k := by rw [List.length_take]; omega
      simp only [Enc.behind, List.length_append, this]
      omega
    · refine h.encStep (e' := e') hk rfl ?_
      intro io ems hJ
      obtain ⟨s2, new, g1, g2, g3, _⟩ := hJ.repair hc ha
      simp only [Sys.step, bind_ok_iff, pure_ok_iff] at g1
      obtain ⟨e2, g1, rfl⟩ := g1
      have : (s.restart c.clk io k).enc = (s.restart c.clk true k).enc := rfl
      rw [this, h0] at g1
      cases g1
      exact ⟨new, g2.enc, g2.cur, g2.curLt, g2.rep, g2.rate, g2.ws⟩
  | setRate n =>
    simp only [Sys.step, Enc.setRate, bind_ok_iff, pure_ok_iff] at hst
    obtain ⟨e, ⟨_, _, rfl⟩, rfl⟩ := hst
    exact ⟨hk, h.param hk rfl rfl rfl rfl rfl hrate hws⟩
  | setWindow n =>
    simp only [Sys.step, Enc.setWindowSize, bind_ok_iff, pure_ok_iff] at hst
    obtain ⟨e, ⟨_, _, rfl⟩, rfl⟩ := hst
    exact ⟨hk, h.param hk rfl rfl rfl rfl rfl hrate hws⟩
  | setAdaptive b =>
    simp only [Sys.step, pure_ok_iff] at hst
    subst hst
    exact ⟨hk, h.param hk rfl rfl rfl rfl rfl hrate hws⟩
  | setSystematic b =>
    simp only [Sys.step, pure_ok_iff] at hst
    subst hst
    exact ⟨hk, h.param hk rfl rfl rfl rfl rfl hrate hws⟩
  | deliver i =>
    simp only [Sys.step] at hst
    split at hst
    · cases hst; exact ⟨hk, h⟩
    · rw [bind_ok_iff] at hst
      obtain ⟨e, _, hst⟩ := hst
      cases hst
      exact ⟨hk, h.congr rfl rfl⟩
  | ack j => cases hn
  | genAck => cases hst; exact ⟨hk, h.congr rfl rfl⟩
  | maybeAck => cases hst; exact ⟨hk, h.congr rfl rfl⟩
  | setAckNb n =>
    simp only [Sys.step, bind_ok_iff, pure_ok_iff] at hst
    obtain ⟨e, _, rfl⟩ := hst
    exact ⟨hk, h.congr rfl rfl⟩
  | setAckPeriod ms => cases hst; exact ⟨hk, h.congr rfl rfl⟩

/-- The invariant of schedules with restarts. -/
theorem again_inv (hc : c.Ok) {io : Bool} {k : Nat} {p : Pair} (h : Again c noLeftovers io k p) :
    ∀ data, Agree data p.sys.committed → (∃ ems A ρ L W K, SysInv c io data ems A ρ L W K p.sys) ∧
      k ≤ p.sys.enc.out.length ∧ Ready c data k p.sys := by
  induction h with
  | init io =>
    intro data _
    refine ⟨⟨[], ∅, 0, 0, ∅, ∅, sysInv_init c io data⟩, Nat.zero_le _, fun io' => ⟨[], ?_⟩⟩
    exact (sysInv_init c io data).fresh io'
  | @act io k p p' a hr ha hst ih =>
    simp only [Pair.step, bind_ok_iff, pure_ok_iff] at hst
    obtain ⟨s', hst, rfl⟩ := hst
    intro data hag
    have hcom := step_committed hst
    simp only at hag ⊢
    rw [hcom] at hag
    have hD : ∀ d, a = .commit d → data p.sys.committed.length = d := by
      rintro d rfl
      exact hag _ d (by simp [Act.commits])
    obtain ⟨⟨ems, A, ρ, L, W, K, hI⟩, hk, hR⟩ := ih data hag.prefix
    obtain ⟨s2, new, A', ρ', L', W', K', h1, h2, _⟩ := hI.step hc hag.prefix a ha hD
    rw [hst] at h1
    cases h1
    refine ⟨⟨_, _, _, _, _, _, h2⟩, ?_⟩
    cases hn : a.isAck with
    | true =>
      simp only [if_true]
      exact ⟨Nat.le_refl _, fun io' => ⟨[], h2.fresh io'⟩⟩
    | false =>
      simp only [Bool.false_eq_true, if_false]
      exact hR.step hc hk h2.rate h2.ws (late_of_allowed ha) hst hn hD
  | @newDecoder io k p p' io' k' hr hk hst ih =>
    simp only [Pair.step, pure_ok_iff] at hst
    subst hst
    intro data hag
    obtain ⟨_, hle, hR⟩ := ih data hag
    have hk : k ≤ k' := hk.resolve_right (by simp [noLeftovers])
    have hR := hR.later hk
    obtain ⟨ems, hI⟩ := hR io'
    refine ⟨⟨_, _, _, _, _, _, hI⟩, Nat.zero_le _, fun io => ?_⟩
    obtain ⟨ems, hI⟩ := hR io
    refine ⟨ems, ?_⟩
    have h3 := sysInv_fresh (c := c) (p.sys.dec.ticks + 1) io hI.enc hI.cur hI.curLt hI.rep hI.rate hI.ws
    exact h3
  | newEncoder hr ho => exact absurd ho (by simp [noLeftovers])
  | oldAck j hr ho => exact absurd ho (by simp [noLeftovers])

/-- A new decoder, if sources may be late. -/
theorem Ready.ginv (h : Ready c data k s) (io : Bool) : GInv c io data (s.restart c.clk io k) := by
  obtain ⟨ems, hI⟩ := h false
  cases io with
  | false => exact ⟨_, _, _, _, _, _, hI⟩
  | true =>
    refine ⟨ems, ∅, 0, 0, ∅, ∅, Dec.init false, hI, (lateInv_init c data).ord, fun ev hev => (by cases hev), rfl⟩

theorem GInv.encFacts {io : Bool} {m : Sys} (h : GInv c io data m) (io' : Bool) : m.enc.rate ≠ 0 ∧ m.enc.windowSize ≠ 0 ∧
    ∃ ems, SysInv c io' data ems ∅ 0 0 ∅ ∅ (m.restart c.clk io' m.enc.out.length) := by
  obtain ⟨u, ems, A, ρ, L, W, K, hI⟩ := h.view
  exact ⟨hI.rate, hI.ws, _, hI.fresh io'⟩

/-- The invariant of schedules with restarts, if sources may be late. -/
theorem again_ginv (hc : c.Ok) {io : Bool} {k : Nat} {p : Pair} (h : Again c lateSources io k p) :
    ∀ data, Agree data p.sys.committed → GInv c io data p.sys ∧ k ≤ p.sys.enc.out.length ∧ Ready c data k p.sys := by
  induction h with
  | init io =>
    intro data _
    refine ⟨?_, Nat.zero_le _, fun io' => ⟨[], ?_⟩⟩
    · cases io with
      | false => exact ⟨[], ∅, 0, 0, ∅, ∅, sysInv_init c false data⟩
      | true => exact ⟨[], ∅, 0, 0, ∅, ∅, _, lateInv_init c data⟩
    · exact (sysInv_init c io data).fresh io'
  | @act io k p p' a hr ha hst ih =>
    simp only [Pair.step, bind_ok_iff, pure_ok_iff] at hst
    obtain ⟨s', hst, rfl⟩ := hst
    intro data hag
    have hcom := step_committed hst
    simp only at hag ⊢
    rw [hcom] at hag
    have hD : ∀ d, a = .commit d → data p.sys.committed.length = d := by
      rintro d rfl
      exact hag _ d (by simp [Act.commits])
    obtain ⟨hG, hk, hR⟩ := ih data hag.prefix
    obtain ⟨s2, h1, h2⟩ := hG.step hc hag.prefix a ha hD
    rw [hst] at h1
    cases h1
    refine ⟨h2, ?_⟩
    cases hn : a.isAck with
    | true =>
      simp only [if_true]
      exact ⟨Nat.le_refl _, fun io' => (h2.encFacts io').2.2⟩
    | false =>
      simp only [Bool.false_eq_true, if_false]
      exact hR.step hc hk (h2.encFacts io).1 (h2.encFacts io).2.1 ha hst hn hD
  | @newDecoder io k p p' io' k' hr hk hst ih =>
    simp only [Pair.step, pure_ok_iff] at hst
    subst hst
    intro data hag
    obtain ⟨_, hle, hR⟩ := ih data hag
    have hk : k ≤ k' := hk.resolve_right (by simp [lateSources])
    have hR := hR.later hk
    refine ⟨hR.ginv io', Nat.zero_le _, fun io => ?_⟩
    obtain ⟨ems, hI⟩ := hR io
    refine ⟨ems, ?_⟩
    have h3 := sysInv_fresh (c := c) (p.sys.dec.ticks + 1) io hI.enc hI.cur hI.curLt hI.rep hI.rate hI.ws
    exact h3
  | newEncoder hr ho => exact absurd ho (by simp [lateSources])
  | oldAck j hr ho => exact absurd ho (by simp [lateSources])

end

/-! ## Examples -/

/-- `Permits`, decided. -/
def permitsB (c : Cfg w) (late : Bool) (s : Sys) (a : Act) : Bool :=
  match late with
  | false => allowedB c s a
  | true => allowedLateB c s a

theorem permits_of_B {c : Cfg w} {late : Bool} {s : Sys} {a : Act} (h : permitsB c late s a = true) : Permits c late s a := by
  cases late with
  | false => exact allowed_of_B h
  | true => exact allowedLate_of_B h

/-- Run a schedule as long as it is one. -/
def runAgain (c : Cfg w) (o : Leftovers) : Bool → Nat → Pair → List PairAct → Option (Bool × Nat × Pair)
  | io, k, p, [] => some (io, k, p)
  | io, k, p, a :: t =>
    match p.step c a with
    | .error _ => none
    | .ok p' =>
      match a with
      | .act b => if permitsB c o.late p.sys b then runAgain c o io (if b.isAck then p'.sys.enc.out.length else k) p' t else none
      | .newDecoder io' k' => if k ≤ k' ∨ o.packets = true then runAgain c o io' 0 p' t else none
      | .newEncoder => if o.encoders = true then runAgain c o io 0 p' t else none
      | .oldAck _ => if o.acks = true then runAgain c o io p'.sys.enc.out.length p' t else none

theorem again_of_run {c : Cfg w} {o : Leftovers} (acts : List PairAct) {io : Bool} {k : Nat} {p : Pair} (h : Again c o io k p)
    {r : Bool × Nat × Pair} (hr : runAgain c o io k p acts = some r) : Again c o r.1 r.2.1 r.2.2 := by
  induction acts generalizing io k p with
  | nil => cases hr; exact h
  | cons a t ih =>
    unfold runAgain at hr
    split at hr
    · cases hr
    · next p' hp =>
      cases a with
      | act b =>
        simp only at hr
        split at hr
        · next hb => exact ih (.act h (permits_of_B hb) hp) hr
        · cases hr
      | newDecoder io' k' =>
        simp only at hr
        split at hr
        · next hb => exact ih (.newDecoder io' k' h hb hp) hr
        · cases hr
      | newEncoder =>
        simp only at hr
        split at hr
        · next hb => exact ih (.newEncoder h hb hp) hr
        · cases hr
      | oldAck j =>
        simp only at hr
        split at hr
        · next hb => exact ih (.oldAck j h hb hp) hr
        · cases hr

/-- The state reached by a schedule with restarts. -/
@[irreducible] def againReached (c : Cfg w) (o : Leftovers) (io : Bool) (acts : List PairAct) : Bool × Nat × Pair :=
  (runAgain c o io 0 (Pair.init c.clk io) acts).getD (io, 0, Pair.init c.clk io)

theorem againReached_reach {c : Cfg w} {o : Leftovers} {io : Bool} {acts : List PairAct}
    (h : (runAgain c o io 0 (Pair.init c.clk io) acts).isSome = true) :
    Again c o (againReached c o io acts).1 (againReached c o io acts).2.1 (againReached c o io acts).2.2 := by
  obtain ⟨s, hs⟩ := Option.isSome_iff_exists.1 h
  unfold againReached
  rw [hs]
  exact again_of_run acts (.init io) hs

end Netcode
