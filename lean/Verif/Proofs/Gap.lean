import Verif.Props.Memory
import Verif.Props.AnySched

/-!
# Many sources and no repairs, of which only some arrive
-/

set_option linter.unusedSectionVars false

namespace Netcode

open OMap

variable {w : Nat} {c : Cfg w} {s : Sys}

/-- The schedules with limits are schedules. -/
theorem reach_any {io : Bool} (h : Reach c io s) : AnyReach c io s := by
  induction h with
  | init => exact .init
  | @step s1 s2 a _ ha hs ih =>
    refine .step ih ?_ hs
    cases a <;> first | exact ha | trivial

/-- A decoder without ordering that got no repair, and of the sources below `N` those that satisfy `P`. -/
structure Quiet (f : Nat → List Byte) (P : Nat → Bool) (N : Nat) (d : Dec) : Prop where
  mode : d.inOrder = false
  missing : d.missing = []
  repairs : d.repairs = []
  last : d.lastId = none
  sorted : SortedKeys d.sources
  held : ∀ x, d.sources.get? x = if x < N ∧ P x = true then some ⟨x, f x⟩ else none
  handed : ∀ x ∈ d.handed, x < N ∧ P x = true

theorem quiet_init (f : Nat → List Byte) (P : Nat → Bool) : Quiet f P 0 (Dec.init false) :=
  ⟨rfl, rfl, rfl, rfl, List.Pairwise.nil, fun x => by simp [Dec.init], fun x hx => by simp [Dec.handed, Dec.init] at hx⟩

/-- A source that is not held is added to a decoder that holds no repair and misses nothing. -/
theorem addSource_quiet {d : Dec} (gf : GF w) (dbg : Bool) (src : DSource) (h1 : d.inOrder = false) (h2 : d.missing = [])
    (hn : src.id ∉ d.sources.map (·.1)) (fuel : Nat) :
    addSource gf dbg (fuel + 1) src d =
      .ok { d.callback src with sources := d.sources.emplace src.id src } := by
  have hh : addSourceHead gf dbg src d = .ok (d.callback src) := by
    unfold addSourceHead Dec.giveNew
    rw [if_pos (by rw [h1]; rfl)]
    simp only [bind, Except.bind, Dec.callback, h2, OMap.get?_nil]
    rfl
  have hm : (d.callback src).missing.keys.head? = none := by
    show d.missing.keys.head? = none
    rw [h2]; rfl
  unfold addSource
  rw [hh]
  simp only [bind, Except.bind]
  rw [hm]
  unfold scanMissing
  simp only
  unfold addSourceTail
  rw [cassert_true _ (by
    have : (d.callback src).sources.has src.id = false := (has_false_iff _ _).2 hn
    rw [this]; rfl)]
  simp only [bind, Except.bind]
  rw [if_neg (by
    show ¬ (d.inOrder && _) = true
    rw [h1]; simp)]
  rfl

theorem Quiet.fresh {f : Nat → List Byte} {P : Nat → Bool} {N : Nat} {d : Dec} (h : Quiet f P N d) {x : Nat} (hx : ¬ (x < N ∧ P x = true)) :
    x ∉ d.sources.map (·.1) := by
  have := h.held x
  rw [if_neg hx] at this
  exact (get?_eq_none_iff _ _).1 this

theorem Quiet.source {f : Nat → List Byte} {P : Nat → Bool} {N : Nat} {d : Dec} (h : Quiet f P N d) (gf : GF w) (dbg : Bool)
    (hP : P N = true) : ∃ d', d.onSource gf dbg ⟨N, f N⟩ = .ok d' ∧ Quiet f P (N + 1) d' ∧ d.log <+: d'.log := by
  have hn := h.fresh (x := N) (by omega)
  refine ⟨{ d.callback ⟨N, f N⟩ with sources := d.sources.emplace N ⟨N, f N⟩ }, ?_, ⟨h.mode, h.missing, h.repairs, h.last, sorted_emplace _ h.sorted _ _, fun x => ?_, fun x hx => ?_⟩, ?_⟩
  · unfold Dec.onSource
    rw [if_neg (by rw [h.last]; simp), if_neg (by
      have : d.sources.has N = false := (has_false_iff _ _).2 hn
      rw [this]; simp)]
    have hfu : d.fuel = 5 + 1 := by unfold Dec.fuel; rw [h.repairs, h.missing]; rfl
    rw [hfu, addSource_quiet gf dbg _ h.mode h.missing hn]
    simp only [bind, Except.bind]
    unfold Dec.fullDecode
    rw [if_pos (by simp [Dec.callback, h.repairs])]
    rfl
  · show (d.sources.emplace N ⟨N, f N⟩).get? x = _
    rw [get?_emplace _ h.sorted _ _ hn, h.held]
    by_cases hx : x = N
    · subst hx; simp [hP]
    · have : (x < N ∧ P x = true) ↔ (x < N + 1 ∧ P x = true) := by
        constructor
        · rintro ⟨a, b⟩; exact ⟨by omega, b⟩
        · rintro ⟨a, b⟩; exact ⟨by omega, b⟩
      rw [if_neg hx]
      simp only [this]
  · have : x ∈ d.handed ∨ x = N := by simpa [Dec.handed, Dec.callback] using hx
    rcases this with h1 | rfl
    · have := h.handed x h1; exact ⟨by omega, this.2⟩
    · exact ⟨Nat.lt_succ_self _, hP⟩
  · exact List.prefix_append _ _

theorem Quiet.skip {f : Nat → List Byte} {P : Nat → Bool} {N : Nat} {d : Dec} (h : Quiet f P N d) (hP : P N = false) :
    Quiet f P (N + 1) d := by
  refine ⟨h.mode, h.missing, h.repairs, h.last, h.sorted, fun x => ?_, fun x hx => by have := h.handed x hx; exact ⟨by omega, this.2⟩⟩
  rw [h.held]
  have : (x < N ∧ P x = true) ↔ (x < N + 1 ∧ P x = true) := by
    constructor
    · rintro ⟨a, b⟩; exact ⟨by omega, b⟩
    · rintro ⟨a, b⟩
      refine ⟨?_, b⟩
      rcases Nat.lt_or_eq_of_le (Nat.le_of_lt_succ a) with h1 | h1
      · exact h1
      · subst h1; rw [hP] at b; cases b
  simp only [this]

/-- The `i`-th datum is `f i`; of its `N` packets those that satisfy `P` arrive, in the order in which they were sent. No repairs are
sent and no acks arrive. -/
theorem gap_state (hc : c.Ok) (f : Nat → List Byte) (hf : ∀ x, DataOk w (f x)) (P : Nat → Bool) (N : Nat) (hN : N < 2 ^ 32) :
    ∃ s, Reach c false s ∧ s.committed = (List.range N).map f ∧ s.enc.systematic = true ∧ s.enc.rate = 2 ^ 32 ∧
      s.enc.windowSize = 2 ^ 64 - 1 ∧ s.enc.sources = (List.range N).map (fun i => ⟨i, f i⟩) ∧
      s.enc.out = (List.range N).map (fun i => .source ⟨i, f i⟩) ∧ s.enc.nbSentRepairs = 0 ∧ s.enc.curRep = 0 ∧
      s.hist = (List.range N).filter P ∧ Quiet f P N s.dec.det := by
  have := fact_of_valid hc.width
  induction N with
  | zero =>
    have r0 : Reach c false (Sys.init c.clk false) := .init
    obtain ⟨s1, h1, -⟩ := C05_no_fault_partial hc r0 (.setRate (2 ^ 32)) (by show 0 < 2 ^ 32; decide)
    have r1 := Reach.step r0 (by show 0 < 2 ^ 32; decide) h1
    refine ⟨s1, r1, ?_⟩
    simp only [Sys.step, Enc.setRate, bind_ok_iff, pure_ok_iff] at h1
    obtain ⟨e1, ⟨_, _, rfl⟩, rfl⟩ := h1
    exact ⟨rfl, rfl, rfl, rfl, rfl, rfl, rfl, rfl, rfl, quiet_init f P⟩
  | succ N ih =>
    obtain ⟨s, h, h1, h2, h3, h4, h5, h6, h7, h7', h8, hQ⟩ := ih (by omega)
    obtain ⟨ems, A, ρ, L, W, K, hI⟩ := inv_of_reach hc h
    have hcur : s.enc.curSrc = N := by rw [hI.cur, h1, List.length_map, List.length_range]
    have ha : Allowed c s (.commit (f N)) := ⟨hf N, by rw [h1, List.length_map, List.length_range]; omega, by rw [h7]; decide⟩
    obtain ⟨s1, hs1, -⟩ := C05_no_fault_partial hc h _ ha
    have r1 := Reach.step h ha hs1
    simp only [Sys.step, bind_ok_iff, pure_ok_iff] at hs1
    obtain ⟨e, he, rfl⟩ := hs1
    have hroom : s.enc.room = s.enc.sources := by
      unfold Enc.room
      rw [if_neg]
      rw [h4, h5, List.length_map, List.length_range]
      omega
    have hout : e.out = (List.range (N + 1)).map (fun i => .source ⟨i, f i⟩) ∧ e.sources = (List.range (N + 1)).map (fun i => ⟨i, f i⟩) ∧
        e.systematic = true ∧ e.rate = 2 ^ 32 ∧ e.windowSize = 2 ^ 64 - 1 ∧ e.nbSentRepairs = 0 ∧ e.curRep = 0 := by
      obtain ⟨e1, e2, rfl, g2, g3, g4⟩ := commit_inv he
      rcases g2 with ⟨-, rfl⟩ | ⟨g2, -⟩
      · rcases g4 with ⟨-, rfl⟩ | ⟨g4, -⟩
        · refine ⟨?_, ?_, h2, h3, h4, h7, h7'⟩
          · simp only [Enc.sentSource, h6, hcur, List.range_succ, List.map_append, List.map_cons, List.map_nil]
          · simp only [Enc.sentSource, hroom, h5, hcur, List.range_succ, List.map_append, List.map_cons, List.map_nil]
        · exfalso
          rw [hcur, h3] at g4
          rw [Nat.mod_eq_of_lt hN, Nat.mod_eq_of_lt hN] at g4
          omega
      · rw [h2] at g2; cases g2
    obtain ⟨hout, k2, k3, k4, k5, k6, k7⟩ := hout
    have hcom : s.committed ++ [f N] = (List.range (N + 1)).map f := by rw [h1, List.range_succ, List.map_append]; rfl
    have hget : e.out[N]? = some (.source ⟨N, f N⟩) := by rw [hout]; simp
    cases hP : P N with
    | false =>
      refine ⟨_, r1, hcom, k3, k4, k5, k2, hout, k6, k7, ?_, hQ.skip hP⟩
      show s.hist = _
      rw [h8, List.range_succ, List.filter_append, List.filter_cons_of_neg (by simp [hP])]
      simp
    | true =>
      have ha2 : Allowed c { s with enc := e, committed := s.committed ++ [f N] } (.deliver N) := by
        unfold Allowed
        simp only [hget]
        refine Or.inr (Or.inl (fun j hj hlt => ?_))
        have hj2 : j ∈ s.hist := hj
        rw [h8, List.mem_filter, List.mem_range] at hj2
        omega
      obtain ⟨d', q1, q2, q3⟩ := hQ.source c.gf c.dbg hP
      have hno := notify_source c.gf c.dbg c.clk s.dec ⟨N, f N⟩ (by exact Nat.lt_of_succ_lt hN) (hf N).2.1 d' q1
      generalize hdd : ({ s.dec with nbSources := s.dec.nbSources + 1, ackPackets := (s.dec.ackPackets + 1) % 2 ^ 16 } : NDec).afterDet c.clk d' = dd at hno
      have hdet : dd.det = d' := by
        rw [← hdd]
        exact (afterDet_step c.clk s.dec.gotSource d' q3).2.1
      have hs2 : ({ s with enc := e, committed := s.committed ++ [f N] } : Sys).step c (.deliver N) =
          .ok { s with enc := e, committed := s.committed ++ [f N], dec := dd, hist := s.hist ++ [N], errs := s.errs + 0 } := by
        simp only [Sys.step, hget]
        show (do let (d, x) ← s.dec.notify c.gf c.dbg c.clk (writeSource ⟨N, f N⟩).flatten; _) = _
        rw [hno]
        rfl
      refine ⟨_, .step r1 ha2 hs2, hcom, k3, k4, k5, k2, hout, k6, k7, ?_, ?_⟩
      · show s.hist ++ [N] = _
        rw [h8, List.range_succ, List.filter_append, List.filter_cons_of_pos hP]
        simp
      · show Quiet f P (N + 1) dd.det
        rw [hdet]; exact q2

end Netcode
