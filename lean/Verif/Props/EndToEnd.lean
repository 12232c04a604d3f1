import Verif.Proofs.EndToEnd

/-!
# C79: the end-to-end test programs pass

For every choice of the packets and acks lost (and, with threads, every schedule), not just those the random generator produces.
-/

set_option linter.unusedSectionVars false

namespace Netcode

/-- **C78.** Without a call of `set_window_size`: with ordering, whatever is lost, the data handed over are the first ones committed. -/
theorem C78_default_window {w : Nat} {c : Cfg w} {s : Sys} (hc : c.Ok) (hw : w ≠ 32) (h : PlainLine c true s)
    (hn : s.committed.length < 2 ^ 16) : s.dec.data <+: s.committed := C78_prefix hc hw (plain_room hc hw h hn) hn

/-- A call of `set_window_size`. -/
def Act.setsWindow : Act → Bool
  | .setWindow _ => true
  | _ => false

/-- The state reached by correct calls and arrivals in order, if no window size is set. -/
def runPlain {w : Nat} (c : Cfg w) (s : Sys) : List Act → Option Sys
  | [] => some s
  | a :: t =>
    if Line w s a ∧ a.setsWindow = false then
      match s.step c a with
      | .ok s' => runPlain c s' t
      | .error _ => none
    else none

theorem plainLine_of_run {w : Nat} {c : Cfg w} {io : Bool} (acts : List Act) {s s' : Sys} (h : PlainLine c io s)
    (hr : runPlain c s acts = some s') : PlainLine c io s' := by
  induction acts generalizing s with
  | nil => cases hr; exact h
  | cons a t ih =>
    unfold runPlain at hr
    split at hr
    · next ha =>
      split at hr
      · next s1 h1 => exact ih (.step h ha.1 (by rintro n rfl; exact absurd ha.2 (by simp [Act.setsWindow])) h1) hr
      · cases hr
    · cases hr

/-- The second of three data is lost. -/
example : ∃ s, PlainLine (cfg8 true) true s ∧ s.dec.data <+: s.committed ∧ s.dec.data = [[1, 2]] ∧ s.committed = [[1, 2], [3], [4, 5]] := by
  have h : (runPlain (cfg8 true) (Sys.init (cfg8 true).clk true)
      [.commit [1, 2], .commit [3], .commit [4, 5], .deliver 0, .deliver 2]).map (fun s => (s.dec.data, s.committed)) =
      some ([[1, 2]], [[1, 2], [3], [4, 5]]) := by decide +kernel
  obtain ⟨s, h1, h2⟩ := Option.map_eq_some_iff.1 h
  have hl := plainLine_of_run _ .init h1
  cases h2' : s.dec.data with
  | nil => rw [h2'] at h2; cases h2
  | cons x t =>
    have e := Prod.mk.inj h2
    refine ⟨s, hl, C78_default_window (cfg8_ok true) (by decide) hl (by rw [e.2]; decide), h2' ▸ e.1, e.2⟩

variable {c : Cfg 8} {size freq : Nat} {loss : Nat → Bool}

/-- The sizes the programs accept. -/
structure SizeOk (size : Nat) : Prop where
  pos : 0 < size
  lt : size < 2 ^ 16
  four : size % 4 = 0

theorem commit_line {n : Nat} {t : Watched} (hz : SizeOk size) (h : Passing c size n t) (hn : n + 1 < 2 ^ 16) :
    Line 8 t.sys (.commit (testDatum size n)) := by
  have := testDatum_length (id := n) hz.four
  have := h.reps
  have h32 : (2 : Nat) ^ 32 = 2 ^ 16 * 2 ^ 16 := by decide
  have h16 : (2 : Nat) ^ 16 = 65536 := by decide
  have hl : t.sys.committed.length = n := by rw [h.com, testData_length]
  have hp := hz.pos
  have ht := hz.lt
  refine ⟨⟨⟨by omega, by omega, by omega⟩, by omega, by omega⟩, trivial⟩

/-- The calls that `testDatum` numbers. -/
structure EndOk (c : Cfg 8) (size n : Nat) (t : EndTest) : Prop where
  pass : Passing c size n t.w
  id : t.id = n

theorem toDec_ok (hc : c.Ok) (hz : SizeOk size) {n : Nat} (hn : n < 2 ^ 16) (is : List Nat) (his : Sorted is) (t : EndTest)
    (h : EndOk c size n t) (hle : ∀ j ∈ t.w.sys.hist, ∀ i ∈ is, j ≤ i) (hlt : ∀ i ∈ is, i < t.w.sys.enc.out.length) :
    ∃ t', is.foldlM (EndTest.toDec c loss size) t = .ok t' ∧ EndOk c size n t' ∧ t'.w.sys.enc.out = t.w.sys.enc.out ∧
      ((∀ k, loss k = false) → t'.w.sys.hist = t.w.sys.hist ++ is) ∧ t'.lostEnc = t.lostEnc ∧
      t'.lostDec + t'.w.sys.hist.length = t.lostDec + t.w.sys.hist.length + is.length := by
  induction is generalizing t with
  | nil => exact ⟨t, rfl, h, rfl, fun _ => by simp, rfl, rfl⟩
  | cons i is ih =>
    rw [List.foldlM_cons]
    obtain ⟨h1, h2⟩ := List.pairwise_cons.1 his
    by_cases hl : loss t.draws = true
    · have e : EndTest.toDec c loss size t i = .ok { t with draws := t.draws + 1, lostDec := t.lostDec + 1 } := by
        unfold EndTest.toDec; rw [if_pos hl]
      rw [e]
      obtain ⟨t', g1, g2, g3, g4, g5, g6⟩ := ih h2 { t with draws := t.draws + 1, lostDec := t.lostDec + 1 } ⟨h.pass, h.id⟩
        (fun j hj k hk => hle j hj k (List.mem_cons_of_mem _ hk)) (fun k hk => hlt k (List.mem_cons_of_mem _ hk))
      refine ⟨t', g1, g2, g3, fun hno => absurd hl (by simp [hno]), g5, ?_⟩
      rw [List.length_cons]
      simp only at g6
      omega
    · obtain ⟨v, q1, q2, q3⟩ := h.pass.call hc hz.four hz.pos (a := .deliver i)
        ⟨trivial, fun j hj => hle j hj i List.mem_cons_self⟩ (by simp) (by simp) (by simp) (by simp) hn
      have e : EndTest.toDec c loss size t i = .ok { t with draws := t.draws + 1, w := v } := by
        unfold EndTest.toDec; rw [if_neg hl]
        unfold EndTest.call
        simp only [q1]; rfl
      have hout := step_out_same (by simp) rfl q3
      have hist : v.sys.hist = t.w.sys.hist ++ [i] := by
        simp only [Sys.step] at q3
        rw [List.getElem?_eq_getElem (hlt i List.mem_cons_self)] at q3
        simp only [bind_ok_iff, pure_ok_iff] at q3
        obtain ⟨_, _, q3⟩ := q3
        rw [← q3]
      rw [e]
      obtain ⟨t', g1, g2, g3, g4, g5, g6⟩ := ih h2 { t with draws := t.draws + 1, w := v } ⟨q2, h.id⟩
        (by
          intro j hj k hk
          simp only at hj
          rw [hist] at hj
          rcases List.mem_append.1 hj with hj | hj
          · exact hle j hj k (List.mem_cons_of_mem _ hk)
          · obtain rfl : j = i := by simpa using hj
            exact Nat.le_of_lt (h1 k hk))
        (by intro k hk; simp only; rw [hout]; exact hlt k (List.mem_cons_of_mem _ hk))
      refine ⟨t', g1, g2, g3.trans hout, fun hno => ?_, g5, ?_⟩
      · rw [g4 hno]; simp only; rw [hist]; simp
      · simp only [hist, List.length_append, List.length_cons, List.length_nil] at g6 ⊢
        omega

theorem toEnc_ok (hc : c.Ok) (hz : SizeOk size) {n : Nat} (hn : n < 2 ^ 16) (js : List Nat) (t : EndTest) (h : EndOk c size n t) :
    ∃ t', js.foldlM (EndTest.toEnc c loss size) t = .ok t' ∧ EndOk c size n t' ∧ t'.w.sys.enc.out = t.w.sys.enc.out ∧
      t'.w.sys.hist = t.w.sys.hist ∧ t'.lostDec = t.lostDec := by
  induction js generalizing t with
  | nil => exact ⟨t, rfl, h, rfl, rfl, rfl⟩
  | cons j js ih =>
    rw [List.foldlM_cons]
    by_cases hl : loss t.draws = true
    · have e : EndTest.toEnc c loss size t j = .ok { t with draws := t.draws + 1, lostEnc := t.lostEnc + 1 } := by
        unfold EndTest.toEnc; rw [if_pos hl]
      rw [e]
      exact ih _ ⟨h.pass, h.id⟩
    · obtain ⟨v, q1, q2, q3⟩ := h.pass.call hc hz.four hz.pos (a := .ack j) ⟨trivial, trivial⟩ (by simp) (by simp) (by simp) (by simp) hn
      have e : EndTest.toEnc c loss size t j = .ok { t with draws := t.draws + 1, w := v } := by
        unfold EndTest.toEnc; rw [if_neg hl]
        unfold EndTest.call
        simp only [q1]; rfl
      have hout := step_out_same (by simp) rfl q3
      have hist : v.sys.hist = t.w.sys.hist := by
        rcases step_hist q3 with h1 | ⟨i, h1, _⟩
        · exact h1
        · cases h1
      rw [e]
      obtain ⟨t', g1, g2, g3, g4, g5⟩ := ih { t with draws := t.draws + 1, w := v } ⟨q2, h.id⟩
      exact ⟨t', g1, g2, g3.trans hout, g4.trans hist, g5⟩

theorem range'_sorted (n m : Nat) : Sorted (List.range' n m) := by
  unfold Sorted
  exact List.pairwise_lt_range'

theorem round_ok (hc : c.Ok) (hz : SizeOk size) {n : Nat} (hn : n + 1 < 2 ^ 16) (t : EndTest) (h : EndOk c size n t)
    (hcnt : t.lostDec + t.w.sys.hist.length = t.w.sys.enc.out.length) :
    ∃ t', t.round c loss size freq = .ok t' ∧ EndOk c size (n + 1) t' ∧
      t'.lostDec + t'.w.sys.hist.length = t'.w.sys.enc.out.length ∧
      ((∀ k, loss k = false) → t.w.sys.hist = List.range t.w.sys.enc.out.length →
        t'.w.sys.hist = List.range t'.w.sys.enc.out.length) := by
  have h16 : (2 : Nat) ^ 16 < 2 ^ 32 := by decide
  obtain ⟨v, q1, q2, q3⟩ := h.pass.call hc hz.four hz.pos (commit_line hz h.pass hn) (by simp) (by simp) (by simp)
    (by intro d hd; cases hd; rfl) hn
  have hpre := step_out q3
  have hh : v.sys.hist = t.w.sys.hist := by
    rcases step_hist q3 with h1 | ⟨i, h1, _⟩
    · exact h1
    · cases h1
  obtain ⟨t1, g1, g2, g3, g4, -, g6⟩ := toDec_ok (loss := loss) hc hz hn
    (List.range' t.w.sys.enc.out.length (v.sys.enc.out.length - t.w.sys.enc.out.length)) (range'_sorted _ _)
    { t with w := v, id := (t.id + 1) % 2 ^ 32 }
    ⟨q2, by show (t.id + 1) % 2 ^ 32 = n + 1; rw [h.id]; exact Nat.mod_eq_of_lt (by omega)⟩
    (by
      intro j hj i hi
      simp only at hj
      rw [hh] at hj
      have := h.pass.hist j hj
      have := (List.mem_range'_1.1 hi).1
      omega)
    (by
      intro i hi
      have := (List.mem_range'_1.1 hi).2
      have := hpre.length_le
      simp only
      omega)
  have hsend : t.send c loss size = .ok t1 := by
    unfold EndTest.send EndTest.call
    rw [h.id, q1]
    simp only [bind, Except.bind, pure, Except.pure]
    rw [← h.id]
    exact g1
  have hround : t.round c loss size freq = t1.acks c loss size freq t.w.sys.dec.out.length := by
    unfold EndTest.round
    rw [hsend]; rfl
  have hlen : t1.lostDec + t1.w.sys.hist.length = t1.w.sys.enc.out.length := by
    rw [g3]
    simp only [hh, List.length_range'] at g6
    have := hpre.length_le
    simp only
    omega
  have hall : (∀ k, loss k = false) → t.w.sys.hist = List.range t.w.sys.enc.out.length →
      t1.w.sys.hist = List.range t1.w.sys.enc.out.length := by
    intro hno hr
    rw [g4 hno, g3]
    simp only
    rw [hh, hr, List.range_eq_range', List.range_eq_range']
    have := List.range'_append_1 (s := 0) (m := t.w.sys.enc.out.length) (n := v.sys.enc.out.length - t.w.sys.enc.out.length)
    rw [Nat.zero_add] at this
    rw [this]
    congr 1
    have := hpre.length_le
    omega
  rw [hround]
  unfold EndTest.acks
  split
  · obtain ⟨v2, r1, r2, r3⟩ := g2.pass.call hc hz.four hz.pos (a := .genAck) ⟨trivial, trivial⟩ (by simp) (by simp) (by simp) (by simp) hn
    have hout := step_out_same (by simp) rfl r3
    have hist : v2.sys.hist = t1.w.sys.hist := by
      rcases step_hist r3 with h1 | ⟨i, h1, _⟩
      · exact h1
      · cases h1
    obtain ⟨t2, p1, p2, p3, p4, p5⟩ := toEnc_ok (loss := loss) hc hz hn
      (List.range' t.w.sys.dec.out.length (v2.sys.dec.out.length - t.w.sys.dec.out.length)) { t1 with w := v2 } ⟨r2, g2.id⟩
    refine ⟨t2, ?_, p2, ?_, ?_⟩
    · unfold EndTest.call
      rw [r1]
      exact p1
    · rw [p3, p4, p5]
      simp only
      rw [hout, hist]; exact hlen
    · intro hno hr
      rw [p3, p4]
      simp only
      rw [hout, hist]; exact hall hno hr
  · exact ⟨t1, rfl, g2, hlen, hall⟩

theorem rounds_ok (hc : c.Ok) (hz : SizeOk size) (m n : Nat) (hn : n + m < 2 ^ 16) (t : EndTest) (h : EndOk c size n t)
    (hcnt : t.lostDec + t.w.sys.hist.length = t.w.sys.enc.out.length) :
    ∃ t', t.rounds c loss size freq m = .ok t' ∧ EndOk c size (n + m) t' ∧
      t'.lostDec + t'.w.sys.hist.length = t'.w.sys.enc.out.length ∧
      ((∀ k, loss k = false) → t.w.sys.hist = List.range t.w.sys.enc.out.length →
        t'.w.sys.hist = List.range t'.w.sys.enc.out.length) := by
  induction m generalizing n t with
  | zero => exact ⟨t, rfl, h, hcnt, fun _ h => h⟩
  | succ m ih =>
    obtain ⟨t1, g1, g2, g3, g4⟩ := round_ok (loss := loss) (freq := freq) hc hz (by omega) t h hcnt
    obtain ⟨t2, r1, r2, r3, r4⟩ := ih (n + 1) (by omega) t1 g2 g3
    refine ⟨t2, ?_, by rw [show n + (m + 1) = n + 1 + m by omega]; exact r2, r3, fun hno hr => r4 hno (g4 hno hr)⟩
    unfold EndTest.rounds
    rw [g1]; exact r1

theorem start_ok (hc : c.Ok) (hz : SizeOk size) :
    ∃ t, EndTest.start c size = .ok t ∧ EndOk c size 0 t ∧ t.w.sys.enc.out = [] ∧ t.w.sys.hist = [] ∧ t.lostDec = 0 := by
  obtain ⟨v, q1, q2, q3⟩ := (passing_init (c := c) (size := size)).call hc hz.four hz.pos (a := .setAckPeriod 0) ⟨trivial, trivial⟩
    (by simp) (by simp) (by simp) (by simp) (by decide)
  refine ⟨{ w := v, id := 0, draws := 0, lostDec := 0, lostEnc := 0 }, ?_, ⟨q2, rfl⟩, ?_, ?_, rfl⟩
  · unfold EndTest.start EndTest.call
    rw [q1]; rfl
  · exact step_out_same (by simp) rfl q3
  · rcases step_hist q3 with h1 | ⟨i, h1, _⟩
    · exact h1
    · cases h1

/-- **C79.** `end_to_end`, with any packets and acks lost: no undefined behaviour, no failed assertion and no exception; the data
handler was given the first data, each once; every packet was lost or arrived. -/
theorem C79_end_to_end (hc : c.Ok) (hz : SizeOk size) (loss : Nat → Bool) (freq n : Nat) (hn : n < 2 ^ 16) :
    ∃ t, endTest c loss size freq n = .ok t ∧ t.w.sys.committed = testData size n ∧
      t.w.handler.received ≤ n ∧ t.w.sys.dec.data = testData size t.w.handler.received ∧
      t.lostDec + t.w.sys.hist.length = t.w.sys.enc.out.length := by
  obtain ⟨t0, g1, g2, g3, g4, g5⟩ := start_ok hc hz
  obtain ⟨t, h1, h2, h3, -⟩ := rounds_ok (loss := loss) (freq := freq) hc hz n 0 (by omega) t0 g2 (by rw [g3, g4, g5]; rfl)
  rw [Nat.zero_add] at h2
  refine ⟨t, ?_, h2.pass.com, ?_, ?_, h3⟩
  · unfold endTest
    rw [g1]; exact h1
  all_goals
    have hcl : t.w.sys.committed.length < 2 ^ 16 := by rw [h2.pass.com, testData_length]; exact hn
    have hp := C78_default_window hc (by decide) h2.pass.line hcl
    rw [h2.pass.com] at hp
    have hl := hp.length_le
    rw [testData_length] at hl
    rw [h2.pass.handler]
  · exact hl
  · conv_lhs => rw [List.prefix_iff_eq_take.1 hp]
    simp only [testData]
    rw [← List.map_take, List.take_range, Nat.min_eq_left hl]

/-- When all packets have arrived, all data were handed over. -/
theorem all_handed (hc : c.Ok) {n : Nat} (hn : n < 2 ^ 16) {t : Watched} (h : Passing c size n t)
    (hall : ∀ i < t.sys.enc.out.length, i ∈ t.sys.hist) : t.sys.dec.data = t.sys.committed := by
  have := fact_of_valid hc.width
  have hl := plain_line h.line
  have hcl : t.sys.committed.length < 2 ^ 16 := by rw [h.com, testData_length]; exact hn
  have hlen : t.sys.committed.length = n := by rw [h.com, testData_length]
  have hsrc : ∀ x < n, ∃ i sr, i ∈ t.sys.hist ∧ t.sys.enc.out[i]? = some (.source sr) ∧ sr.id = x := by
    intro x hx
    obtain ⟨sr, h1, h2⟩ := List.mem_map.1 (h.sent x hx)
    obtain ⟨i, hi⟩ := List.getElem?_of_mem (mem_sourcesOf.1 h1)
    exact ⟨i, sr, hall i (getElem?_lt hi), hi, h2⟩
  have hmem : ∀ x < n, x ∈ t.sys.dec.det.handed := by
    intro x hx
    obtain ⟨i, sr, h1, h2, rfl⟩ := hsrc x hx
    rcases C70_arrived hc (by decide) hl hcl i h1 sr h2 with h3 | ⟨_, y, hy, h3, _⟩
    · exact h3
    · obtain ⟨i', sr', g1, g2, rfl⟩ := hsrc y (by omega)
      exact absurd (line_known hc (by decide) hl hcl i' g1 sr' g2) h3
  have hp := C78_default_window hc (by decide) h.line hcl
  refine hp.eq_of_length (Nat.le_antisymm hp.length_le ?_)
  have h2 := (List.subperm_of_subset List.nodup_range (fun x hx => hmem x (List.mem_range.1 hx))).length_le
  rw [List.length_range] at h2
  rw [data_of_handed hc (line_reach hc (by decide) hl hcl), List.length_map, hlen]
  exact h2

/-- **C79.** When nothing is lost, `end_to_end` counts all data. -/
theorem C79_lossless (hc : c.Ok) (hz : SizeOk size) (loss : Nat → Bool) (freq n : Nat) (hn : n < 2 ^ 16) (hno : ∀ k, loss k = false) :
    ∃ t, endTest c loss size freq n = .ok t ∧ t.w.sys.dec.data = testData size n ∧ t.w.handler.received = n ∧ t.lostDec = 0 := by
  obtain ⟨t0, g1, g2, g3, g4, g5⟩ := start_ok hc hz
  obtain ⟨t, h1, h2, h3, h4⟩ := rounds_ok (loss := loss) (freq := freq) hc hz n 0 (by omega) t0 g2 (by rw [g3, g4, g5]; rfl)
  rw [Nat.zero_add] at h2
  have h5 := h4 hno (by rw [g3, g4]; rfl)
  have h6 := all_handed hc hn h2.pass (fun i hi => by rw [h5]; exact List.mem_range.2 hi)
  rw [h2.pass.com] at h6
  refine ⟨t, ?_, h6, ?_, ?_⟩
  · unfold endTest
    rw [g1]; exact h1
  · rw [h2.pass.handler, h6]; exact testData_length size n
  · rw [h5, List.length_range] at h3; omega

/-! ## Threads -/

/-- The number of data a schedule commits. -/
def mtCommits : List MtAct → Nat
  | [] => 0
  | .commit _ :: t => mtCommits t + 1
  | _ :: t => mtCommits t

structure MtOk (c : Cfg 8) (size n : Nat) (t : MtTest) : Prop where
  pass : Passing c size n t.w
  id : t.id = n
  sorted : Sorted t.toDec
  lt : ∀ i ∈ t.toDec, i < t.w.sys.enc.out.length
  le : ∀ j ∈ t.w.sys.hist, ∀ i ∈ t.toDec, j ≤ i

theorem mt_step (hc : c.Ok) (hz : SizeOk size) {n : Nat} {t : MtTest} (h : MtOk c size n t) (a : MtAct)
    (hn : n + mtCommits [a] < 2 ^ 16) : ∃ t', t.step c size a = .ok t' ∧ MtOk c size (n + mtCommits [a]) t' := by
  have h16 : (2 : Nat) ^ 16 < 2 ^ 32 := by decide
  cases a with
  | commit lost =>
    obtain ⟨v, q1, q2, q3⟩ := h.pass.call hc hz.four hz.pos (commit_line hz h.pass hn) (by simp) (by simp) (by simp)
      (by intro d hd; cases hd; rfl) hn
    have hpre := step_out q3
    have hh : v.sys.hist = t.w.sys.hist := by
      rcases step_hist q3 with h1 | ⟨i, h1, _⟩
      · exact h1
      · cases h1
    refine ⟨{ t with w := v, id := (t.id + 1) % 2 ^ 32,
                     toDec := t.toDec ++ (List.range' t.w.sys.enc.out.length (v.sys.enc.out.length - t.w.sys.enc.out.length)).filter
                       (fun i => !lost i) }, ?_, ⟨q2, ?_, ?_, ?_, ?_⟩⟩
    · simp only [MtTest.step]
      rw [h.id, q1]; rfl
    · show (t.id + 1) % 2 ^ 32 = n + 1
      have : n + 1 < 2 ^ 16 := hn
      rw [h.id]; exact Nat.mod_eq_of_lt (by omega)
    · refine List.pairwise_append.2 ⟨h.sorted, (range'_sorted _ _).sublist List.filter_sublist, ?_⟩
      intro x hx y hy
      have := h.lt x hx
      have := (List.mem_range'_1.1 (List.mem_filter.1 hy).1).1
      omega
    · intro i hi
      have := hpre.length_le
      rcases List.mem_append.1 hi with hi | hi
      · exact Nat.lt_of_lt_of_le (h.lt i hi) this
      · have := (List.mem_range'_1.1 (List.mem_filter.1 hi).1).2
        simp only
        omega
    · intro j hj i hi
      simp only at hj
      rw [hh] at hj
      rcases List.mem_append.1 hi with hi | hi
      · exact h.le j hj i hi
      · have := (List.mem_range'_1.1 (List.mem_filter.1 hi).1).1
        have := h.pass.hist j hj
        omega
  | readAck =>
    simp only [MtTest.step]
    cases hq : t.toEnc with
    | nil => exact ⟨t, rfl, h⟩
    | cons j q =>
      obtain ⟨v, q1, q2, q3⟩ := h.pass.call hc hz.four hz.pos (a := .ack j) ⟨trivial, trivial⟩ (by simp) (by simp) (by simp) (by simp) hn
      have hout := step_out_same (by simp) rfl q3
      have hist : v.sys.hist = t.w.sys.hist := by
        rcases step_hist q3 with h1 | ⟨i, h1, _⟩
        · exact h1
        · cases h1
      refine ⟨{ t with w := v, toEnc := q }, ?_, ⟨q2, h.id, h.sorted, ?_, ?_⟩⟩
      · simp only [q1]; rfl
      · simp only; rw [hout]; exact h.lt
      · simp only; rw [hist]; exact h.le
  | read lost =>
    simp only [MtTest.step]
    cases hq : t.toDec with
    | nil => exact ⟨t, rfl, h⟩
    | cons i q =>
      have hsrt := h.sorted
      rw [hq] at hsrt
      obtain ⟨h1, h2⟩ := List.pairwise_cons.1 hsrt
      obtain ⟨v, q1, q2, q3⟩ := h.pass.call hc hz.four hz.pos (a := .deliver i)
        ⟨trivial, fun j hj => h.le j hj i (by rw [hq]; exact List.mem_cons_self)⟩ (by simp) (by simp) (by simp) (by simp) hn
      have hout := step_out_same (by simp) rfl q3
      refine ⟨{ t with w := v, toDec := q, toEnc := t.toEnc ++ (List.range' t.w.sys.dec.out.length
        (v.sys.dec.out.length - t.w.sys.dec.out.length)).filter (fun j => !lost j) }, ?_, ⟨q2, h.id, h2, ?_, ?_⟩⟩
      · simp only [q1]; rfl
      · intro k hk
        simp only; rw [hout]
        exact h.lt k (by rw [hq]; exact List.mem_cons_of_mem _ hk)
      · intro j hj k hk
        simp only at hj hk
        rcases step_hist q3 with g1 | ⟨i', g0, g1, _⟩
        · rw [g1] at hj
          exact h.le j hj k (by rw [hq]; exact List.mem_cons_of_mem _ hk)
        · cases g0
          rw [g1] at hj
          rcases List.mem_append.1 hj with hj | hj
          · exact h.le j hj k (by rw [hq]; exact List.mem_cons_of_mem _ hk)
          · obtain rfl : j = i := by simpa using hj
            exact Nat.le_of_lt (h1 k hk)

theorem mt_run (hc : c.Ok) (hz : SizeOk size) (acts : List MtAct) {n : Nat} {t : MtTest} (h : MtOk c size n t)
    (hn : n + mtCommits acts < 2 ^ 16) : ∃ t', t.run c size acts = .ok t' ∧ MtOk c size (n + mtCommits acts) t' := by
  induction acts generalizing n t with
  | nil => exact ⟨t, rfl, h⟩
  | cons a acts ih =>
    have hadd : mtCommits (a :: acts) = mtCommits [a] + mtCommits acts := by
      cases a <;> simp [mtCommits, Nat.add_comm]
    rw [hadd] at hn ⊢
    obtain ⟨t1, g1, g2⟩ := mt_step hc hz h a (by omega)
    obtain ⟨t2, r1, r2⟩ := ih g2 (by omega)
    refine ⟨t2, ?_, by rw [← Nat.add_assoc]; exact r2⟩
    unfold MtTest.run at r1 ⊢
    rw [List.foldlM_cons, g1]; exact r1

/-- **C79.** `end_to_end_mt`, for all schedules of its threads and all losses: no undefined behaviour, no failed assertion and no
exception; the data handler was given the first data committed, each once. -/
theorem C79_threads (hc : c.Ok) (hz : SizeOk size) (acts : List MtAct) (hn : mtCommits acts < 2 ^ 16) :
    ∃ t, (MtTest.init c).run c size acts = .ok t ∧ t.w.sys.committed = testData size (mtCommits acts) ∧
      t.w.handler.received ≤ mtCommits acts ∧ t.w.sys.dec.data = testData size t.w.handler.received := by
  obtain ⟨t, h1, h2⟩ := mt_run hc hz acts (n := 0) (t := MtTest.init c)
    ⟨passing_init, rfl, List.Pairwise.nil, fun i hi => absurd hi List.not_mem_nil, fun j hj => absurd hj List.not_mem_nil⟩ (by omega)
  rw [Nat.zero_add] at h2
  have hcl : t.w.sys.committed.length < 2 ^ 16 := by rw [h2.pass.com, testData_length]; exact hn
  have hp := C78_default_window hc (by decide) h2.pass.line hcl
  rw [h2.pass.com] at hp
  have hl := hp.length_le
  rw [testData_length] at hl
  refine ⟨t, h1, h2.pass.com, ?_, ?_⟩
  · rw [h2.pass.handler]; exact hl
  · rw [h2.pass.handler]
    conv_lhs => rw [List.prefix_iff_eq_take.1 hp]
    simp only [testData]
    rw [← List.map_take, List.take_range, Nat.min_eq_left hl]

/-! ## Examples -/

/-- The programs use packets of 1024 bytes. -/
theorem sizeOk_1024 : SizeOk 1024 := ⟨by decide, by decide, by decide⟩
example (loss : Nat → Bool) : ∃ t, endTest (cfg8 true) loss 1024 50 10000 = .ok t ∧ t.w.handler.received ≤ 10000 :=
  let ⟨t, h1, _, h2, _⟩ := C79_end_to_end (cfg8_ok true) sizeOk_1024 loss 50 10000 (by decide)
  ⟨t, h1, h2⟩

/-- What a run of `end_to_end` counts: data handled, rebuilt, packets and acks lost, window at the end. -/
def endCounts (loss : Nat → Bool) (size freq n : Nat) : Option (Nat × Nat × Nat × Nat × Nat) :=
  (endTest (cfg8 true) loss size freq n).toOption.map (fun t =>
    (t.w.handler.received, t.w.sys.dec.det.nbDecoded, t.lostDec, t.lostEnc, t.w.sys.enc.window))


/-- A datum that is not the one expected makes the handler throw. -/
example : InOrderHandler.give 8 ⟨3, 3⟩ (testDatum 8 4) = none ∧ InOrderHandler.give 8 ⟨3, 3⟩ (testDatum 8 3) = some ⟨4, 4⟩ ∧
    InOrderHandler.give 8 ⟨3, 3⟩ (testDatum 4 3) = none := by decide +kernel


/-- Ten data of four bytes, an ack every four packets, the second packet lost: one datum is rebuilt, all are handed over.  With the third
packet lost too, only the first of three data is handed over. -/
example : endCounts (fun k => k == 1) 4 4 10 = some (10, 1, 1, 0, 2) := by decide +kernel
example : endCounts (fun k => k == 1 || k == 2) 4 3 3 = some (1, 0, 2, 0, 3) := by decide +kernel
example : ∃ t, endTest (cfg8 true) (fun k => k == 1) 4 4 10 = .ok t ∧ t.w.sys.committed = testData 4 10 :=
  let ⟨t, h1, h2, _⟩ := C79_end_to_end (cfg8_ok true) (size := 4) ⟨by decide, by decide, by decide⟩ (fun k => k == 1) 4 10 (by decide)
  ⟨t, h1, h2⟩
example : ∃ t, endTest (cfg8 true) (fun _ => false) 1024 50 10000 = .ok t ∧ t.w.handler.received = 10000 :=
  let ⟨t, h1, _, h2, _⟩ := C79_lossless (cfg8_ok true) sizeOk_1024 (fun _ => false) 50 10000 (by decide) (fun _ => rfl)
  ⟨t, h1, h2⟩

/-- A schedule of the threads: the encoder is ahead, the second packet and the first ack are lost. -/
def demoThreads : List MtAct :=
  [.commit (fun _ => false), .commit (fun _ => true), .read (fun _ => false), .commit (fun _ => false), .commit (fun _ => false),
   .commit (fun _ => false), .read (fun _ => false), .readAck, .read (fun _ => false), .read (fun _ => false), .read (fun _ => false)]
example : ((MtTest.init (cfg8 true)).run (cfg8 true) 8 demoThreads).toOption.map (fun t =>
    (t.w.handler.received, t.w.sys.dec.det.nbDecoded, t.w.sys.hist)) = some (5, 1, [0, 2, 3, 4, 5]) := by decide +kernel

end Netcode
