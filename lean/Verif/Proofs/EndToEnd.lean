import Verif.Spec.EndToEnd
import Verif.Props.Gapless
import Verif.Proofs.Settings

/-!
# The end-to-end test programs
-/

set_option linter.unusedSectionVars false

namespace Netcode

section
variable {w : Nat} {c : Cfg w} {io : Bool} {s : Sys}

theorem plain_line (h : PlainLine c io s) : LineReach c io s := by
  induction h with
  | init => exact .init
  | step _ h2 _ h4 ih => exact .step ih h2 h4

theorem step_window {s' : Sys} {a : Act} (ha : ∀ n, a ≠ .setWindow n) (h : s.step c a = .ok s') :
    s'.enc.windowSize = s.enc.windowSize := by
  cases a <;> simp only [Sys.step, bind_ok_iff, pure_ok_iff] at h
  case setWindow n => exact absurd rfl (ha n)
  case commit d => obtain ⟨e, h1, rfl⟩ := h; exact (commit_same h1).1.win
  case repair => obtain ⟨e, h1, rfl⟩ := h; obtain ⟨r, _, rfl⟩ := generateRepair_inv h1; rfl
  case setRate n =>
    obtain ⟨e, h1, rfl⟩ := h
    simp only [Enc.setRate, bind_ok_iff, pure_ok_iff] at h1
    obtain ⟨_, _, rfl⟩ := h1
    rfl
  case ack j =>
    split at h
    · cases h; rfl
    · simp only [bind_ok_iff, pure_ok_iff] at h
      obtain ⟨⟨e, r⟩, h1, rfl⟩ := h
      unfold Enc.notify at h1
      simp only [bind_ok_iff] at h1
      obtain ⟨_, _, h1⟩ := h1
      split at h1
      · cases h1
      · cases h1; rfl
      · split at h1
        · cases h1
        · cases h1; rfl
        · cases h1; rfl
      · cases h1; rfl
  case deliver i =>
    split at h
    · cases h; rfl
    · simp only [bind_ok_iff, pure_ok_iff] at h
      obtain ⟨_, _, rfl⟩ := h
      rfl
  all_goals first
    | (cases h; rfl)
    | (obtain ⟨_, _, rfl⟩ := h; rfl)

theorem step_systematic {s' : Sys} {a : Act} (ha : ∀ b, a ≠ .setSystematic b) (h : s.step c a = .ok s') :
    s'.enc.systematic = s.enc.systematic := by
  cases a <;> simp only [Sys.step, bind_ok_iff, pure_ok_iff] at h
  case setSystematic b => exact absurd rfl (ha b)
  case setWindow n =>
    obtain ⟨e, h1, rfl⟩ := h
    simp only [Enc.setWindowSize, bind_ok_iff, pure_ok_iff] at h1
    obtain ⟨_, _, rfl⟩ := h1
    rfl
  case commit d => obtain ⟨e, h1, rfl⟩ := h; exact (commit_same h1).1.sys
  case repair => obtain ⟨e, h1, rfl⟩ := h; obtain ⟨r, _, rfl⟩ := generateRepair_inv h1; rfl
  case setRate n =>
    obtain ⟨e, h1, rfl⟩ := h
    simp only [Enc.setRate, bind_ok_iff, pure_ok_iff] at h1
    obtain ⟨_, _, rfl⟩ := h1
    rfl
  case ack j =>
    split at h
    · cases h; rfl
    · simp only [bind_ok_iff, pure_ok_iff] at h
      obtain ⟨⟨e, r⟩, h1, rfl⟩ := h
      unfold Enc.notify at h1
      simp only [bind_ok_iff] at h1
      obtain ⟨_, _, h1⟩ := h1
      split at h1
      · cases h1
      · cases h1; rfl
      · split at h1
        · cases h1
        · cases h1; rfl
        · cases h1; rfl
      · cases h1; rfl
  case deliver i =>
    split at h
    · cases h; rfl
    · simp only [bind_ok_iff, pure_ok_iff] at h
      obtain ⟨_, _, rfl⟩ := h
      rfl
  all_goals first
    | (cases h; rfl)
    | (obtain ⟨_, _, rfl⟩ := h; rfl)

theorem plain_window (h : PlainLine c io s) : s.enc.windowSize = 2 ^ 64 - 1 := by
  induction h with
  | init => rfl
  | step _ _ h3 h4 ih => rw [step_window h3 h4]; exact ih

theorem sorted_length_le {l : List Nat} (hs : Sorted l) {n : Nat} (h : ∀ x ∈ l, x < n) : l.length ≤ n := by
  have h1 : l.Nodup := hs.imp Nat.ne_of_lt
  have h2 := (List.subperm_of_subset h1 (fun x hx => List.mem_range.2 (h x hx))).length_le
  rwa [List.length_range] at h2

theorem plain_room (hc : c.Ok) (hw : w ≠ 32) (h : PlainLine c io s) (hn : s.committed.length < 2 ^ 16) : RoomLine c io s := by
  have := fact_of_valid hc.width
  induction h with
  | init => exact .init
  | @step s s' a h1 h2 h3 h4 ih =>
    rw [step_committed h4, List.length_append] at hn
    refine .step (ih (by omega)) h2 ?_ h4
    cases a with
    | commit d =>
      obtain ⟨ems, A, ρ, L, W, K, hI⟩ := inv_of_reach hc (line_reach hc hw (plain_line h1) (by omega))
      show s.enc.sources.length ≠ s.enc.windowSize
      rw [plain_window h1]
      have hl := sorted_length_le hI.enc.srcSorted hI.enc.srcLt
      unfold Enc.win at hl
      rw [List.length_map] at hl
      have : (2 : Nat) ^ 16 < 2 ^ 64 - 1 := by decide
      omega
    | _ => trivial

/-- With fewer than 2^16 data, a repair is emitted at most twice per commit. -/
theorem step_repairs {s' : Sys} {a : Act} (ha : a ≠ .repair) (h : s.step c a = .ok s') :
    s'.enc.nbSentRepairs ≤ s.enc.nbSentRepairs + 2 * a.commits.length := by
  cases a <;> simp only [Sys.step, bind_ok_iff, pure_ok_iff] at h
  case repair => exact absurd rfl ha
  case commit d =>
    obtain ⟨e, h1, rfl⟩ := h
    obtain ⟨e1, e2, rfl, h2, _, h4⟩ := commit_inv h1
    rcases h2 with ⟨_, rfl⟩ | ⟨_, r, _, rfl⟩ <;> rcases h4 with ⟨_, rfl⟩ | ⟨_, r, _, rfl⟩ <;>
      simp [Enc.sentRepair, Enc.sentSource, Act.commits]
  case setRate n =>
    obtain ⟨e, h1, rfl⟩ := h
    simp only [Enc.setRate, bind_ok_iff, pure_ok_iff] at h1
    obtain ⟨_, _, rfl⟩ := h1
    exact Nat.le_add_right _ _
  case setWindow n =>
    obtain ⟨e, h1, rfl⟩ := h
    simp only [Enc.setWindowSize, bind_ok_iff, pure_ok_iff] at h1
    obtain ⟨_, _, rfl⟩ := h1
    exact Nat.le_add_right _ _
  case ack j =>
    split at h
    · cases h; exact Nat.le_add_right _ _
    · simp only [bind_ok_iff, pure_ok_iff] at h
      obtain ⟨⟨e, r⟩, h1, rfl⟩ := h
      have : e.nbSentRepairs = s.enc.nbSentRepairs := by
        unfold Enc.notify at h1
        simp only [bind_ok_iff] at h1
        obtain ⟨_, _, h1⟩ := h1
        split at h1
        · cases h1
        · cases h1; rfl
        · split at h1
          · cases h1
          · cases h1; rfl
          · cases h1; rfl
        · cases h1; rfl
      simp only
      omega
  case deliver i =>
    split at h
    · cases h; exact Nat.le_add_right _ _
    · simp only [bind_ok_iff, pure_ok_iff] at h
      obtain ⟨_, _, rfl⟩ := h
      exact Nat.le_add_right _ _
  all_goals first
    | (cases h; exact Nat.le_add_right _ _)
    | (obtain ⟨_, _, rfl⟩ := h; exact Nat.le_add_right _ _)

/-- Only a commit adds packets. -/
theorem step_out_same {s' : Sys} {a : Act} (ha : a ≠ .repair) (hd : a.commits = []) (h : s.step c a = .ok s') :
    s'.enc.out = s.enc.out := by
  cases a <;> simp only [Sys.step, bind_ok_iff, pure_ok_iff] at h
  case repair => exact absurd rfl ha
  case commit d => simp [Act.commits] at hd
  case setRate n =>
    obtain ⟨e, h1, rfl⟩ := h
    simp only [Enc.setRate, bind_ok_iff, pure_ok_iff] at h1
    obtain ⟨_, _, rfl⟩ := h1
    rfl
  case setWindow n =>
    obtain ⟨e, h1, rfl⟩ := h
    simp only [Enc.setWindowSize, bind_ok_iff, pure_ok_iff] at h1
    obtain ⟨_, _, rfl⟩ := h1
    rfl
  case ack j =>
    split at h
    · cases h; rfl
    · simp only [bind_ok_iff, pure_ok_iff] at h
      obtain ⟨⟨e, r⟩, h1, rfl⟩ := h
      exact enc_notify_out h1
  case deliver i =>
    split at h
    · cases h; rfl
    · simp only [bind_ok_iff, pure_ok_iff] at h
      obtain ⟨_, _, rfl⟩ := h
      rfl
  all_goals first
    | (cases h; rfl)
    | (obtain ⟨_, _, rfl⟩ := h; rfl)

end

/-! ## The data -/

theorem memWord_bytes {x : Nat} (hx : x < 2 ^ 32) (n i : Nat) (hi : i < n) : memWord (List.replicate n (memBytes x)).flatten i = x := by
  have key : ∀ k < 4, ((List.replicate n (memBytes x)).flatten).getD (4 * i + k) 0 = (memBytes x).getD k 0 := by
    intro k hk
    have h1 : ∀ (n i : Nat), i < n → (List.replicate n (memBytes x)).flatten[4 * i + k]? = (memBytes x)[k]? := by
      intro n
      induction n with
      | zero => intro i hi; omega
      | succ n ih =>
        intro i hi
        rw [List.replicate_succ, List.flatten_cons]
        have hl : (memBytes x).length = 4 := rfl
        cases i with
        | zero => rw [List.getElem?_append_left (by omega)]; congr 1; omega
        | succ i =>
          rw [List.getElem?_append_right (by omega), hl]
          have := ih i (by omega)
          rw [← this]
          congr 1
          omega
    rw [List.getD_eq_getElem?_getD, h1 n i hi, List.getD_eq_getElem?_getD]
  unfold memWord
  have k0 := key 0 (by omega)
  rw [Nat.add_zero] at k0
  rw [k0, key 1 (by omega), key 2 (by omega), key 3 (by omega)]
  simp only [memBytes, List.getD_eq_getElem?_getD, List.getElem?_cons_zero, List.getElem?_cons_succ, Option.getD_some, BitVec.toNat_ofNat]
  omega

theorem testDatum_length {size id : Nat} (h4 : size % 4 = 0) : (testDatum size id).length = size := by
  unfold testDatum
  rw [List.length_flatten, List.map_replicate, List.sum_replicate_nat]
  show size / 4 * 4 = size
  omega

theorem give_ok {size k : Nat} (h4 : size % 4 = 0) (h0 : 0 < size) (hk : k + 1 < 2 ^ 32) :
    InOrderHandler.give size ⟨k, k⟩ (testDatum size k) = some ⟨k + 1, k + 1⟩ := by
  have hl := testDatum_length (id := k) h4
  have hw : ∀ i < size / 4, memWord (testDatum size k) i = k := fun i hi => memWord_bytes (by omega) _ _ hi
  unfold InOrderHandler.give
  rw [if_neg (by simp [hl]), if_neg (by simp [hw 0 (by omega)]), if_pos, Nat.mod_eq_of_lt hk]
  rw [hl, List.all_eq_true]
  intro i hi
  rw [hw i (List.mem_range.1 hi), hw 0 (by omega), beq_self_eq_true]

theorem gives_ok {size : Nat} (h4 : size % 4 = 0) (h0 : 0 < size) (m k : Nat) (hk : k + m < 2 ^ 32) :
    ((List.range' k m).map (testDatum size)).foldlM (InOrderHandler.give size) ⟨k, k⟩ = some ⟨k + m, k + m⟩ := by
  induction m generalizing k with
  | zero => rfl
  | succ m ih =>
    rw [List.range'_succ, List.map_cons, List.foldlM_cons, give_ok h4 h0 (by omega)]
    show List.foldlM _ _ _ = _
    rw [ih (k + 1) (by omega)]
    simp only [Nat.add_assoc, Nat.add_comm 1 m]

theorem testData_succ (size n : Nat) : testData size (n + 1) = testData size n ++ [testDatum size n] := by
  simp [testData, List.range_succ]

theorem testData_length (size n : Nat) : (testData size n).length = n := by simp [testData]

theorem drop_prefix_testData {size n k : Nat} {l : List (List Byte)} (h : l <+: testData size n) (hk : k ≤ l.length) :
    l.drop k = (List.range' k (l.length - k)).map (testDatum size) := by
  have hl := h.length_le
  rw [testData_length] at hl
  rw [List.prefix_iff_eq_take.1 h]
  unfold testData
  rw [← List.map_take, ← List.map_drop]
  congr 1
  rw [List.take_range, List.range_eq_range', List.drop_range']
  simp only [List.length_map, List.length_range']
  rw [Nat.min_eq_left hl]
  congr 1
  omega

/-! ## A call -/

/-- The programs are fine after `n` commits. -/
structure Passing (c : Cfg 8) (size n : Nat) (t : Watched) : Prop where
  line : PlainLine c true t.sys
  com : t.sys.committed = testData size n
  reps : t.sys.enc.nbSentRepairs ≤ 2 * n
  handler : t.handler = ⟨t.sys.dec.data.length, t.sys.dec.data.length⟩
  errs : t.sys.errs = 0
  hist : ∀ j ∈ t.sys.hist, j < t.sys.enc.out.length
  sys : t.sys.enc.systematic = true
  sent : ∀ x < n, x ∈ (sourcesOf t.sys.enc.out).map (·.id)

variable {c : Cfg 8} {size n : Nat} {t : Watched}

theorem passing_init : Passing c size 0 (Watched.init c) :=
  ⟨.init, rfl, Nat.le_refl _, rfl, rfl, fun j hj => (by cases hj), rfl, fun x hx => absurd hx (Nat.not_lt_zero x)⟩

theorem Passing.call (hc : c.Ok) (h4 : size % 4 = 0) (h0 : 0 < size) (h : Passing c size n t) {a : Act} (ha : Line 8 t.sys a)
    (hr : a ≠ .repair) (hw : ∀ k, a ≠ .setWindow k) (hb : ∀ b, a ≠ .setSystematic b) (hcom : ∀ d, a = .commit d → d = testDatum size n)
    (hn : n + a.commits.length < 2 ^ 16) :
    ∃ t', t.call c size a = .ok t' ∧ Passing c size (n + a.commits.length) t' ∧ t.sys.step c a = .ok t'.sys := by
  have := fact_of_valid hc.width
  have hlen : t.sys.committed.length = n := by rw [h.com, testData_length]
  obtain ⟨s', hs, he⟩ := C70_no_fault hc (by decide) (plain_line h.line) (by omega) a ha
  have hline : PlainLine c true s' := .step h.line ha hw hs
  have hcom' : s'.committed = testData size (n + a.commits.length) := by
    rw [step_committed hs, h.com]
    cases a with
    | commit d => rw [hcom d rfl]; exact (testData_succ size n).symm
    | _ => simp [Act.commits]
  have hn' : s'.committed.length < 2 ^ 16 := by rw [hcom', testData_length]; exact hn
  have hpre : s'.dec.data <+: testData size (n + a.commits.length) := by
    rw [← hcom']
    exact C78_prefix hc (by decide) (plain_room hc (by decide) hline hn') hn'
  have hreach := line_reach hc (by decide) (plain_line h.line) (by omega)
  have hmono : t.sys.dec.data.length ≤ s'.dec.data.length := by
    have h1 := (C04_known_forever_partial hc hreach a (line_allowed hc (by decide) hreach (by omega) ha) s' hs).2.length_le
    rw [data_of_handed hc hreach, data_of_handed hc (line_reach hc (by decide) (plain_line hline) hn'), List.length_map, List.length_map]
    exact h1
  have hle := hpre.length_le
  rw [testData_length] at hle
  have hg := gives_ok (size := size) h4 h0 (s'.dec.data.length - t.sys.dec.data.length) t.sys.dec.data.length
    (by have : (2 : Nat) ^ 16 < 2 ^ 32 := by decide
        omega)
  rw [← drop_prefix_testData hpre hmono, ← h.handler] at hg
  have e1 : t.sys.dec.data.length + (s'.dec.data.length - t.sys.dec.data.length) = s'.dec.data.length := by omega
  rw [e1] at hg
  refine ⟨⟨s', ⟨s'.dec.data.length, s'.dec.data.length⟩⟩, ?_, ⟨hline, hcom', ?_, rfl, he, ?_, ?_, ?_⟩, hs⟩
  · unfold Watched.call
    rw [hs]
    simp only [hg]
    rw [if_neg (by simp [he, h.errs])]
  · have := step_repairs hr hs
    have := h.reps
    show s'.enc.nbSentRepairs ≤ _
    omega
  · intro j hj
    have hout := (step_out hs).length_le
    rcases step_hist hs with h1 | ⟨i, rfl, h1, h2⟩
    · rw [h1] at hj
      exact Nat.lt_of_lt_of_le (h.hist j hj) hout
    · rw [h1] at hj
      rcases List.mem_append.1 hj with hj | hj
      · exact Nat.lt_of_lt_of_le (h.hist j hj) hout
      · obtain rfl : j = i := by simpa using hj
        have hI := inv_of_reach hc (line_reach hc (by decide) (plain_line hline) hn')
        obtain ⟨ems, A, ρ, L, W, K, hI⟩ := hI
        have := hI.histLt j (by rw [h1]; simp)
        rw [hI.enc.outLen]; exact this

  · show s'.enc.systematic = true
    rw [step_systematic hb hs]; exact h.sys
  · show ∀ x < n + a.commits.length, x ∈ (sourcesOf s'.enc.out).map (·.id)
    cases a with
    | commit d =>
      have hcur : t.sys.enc.curSrc = n := by
        obtain ⟨ems, A, ρ, L, W, K, hI⟩ := inv_of_reach hc hreach
        rw [hI.cur, hlen]
      simp only [Sys.step, bind_ok_iff, pure_ok_iff] at hs
      obtain ⟨e, h1, rfl⟩ := hs
      intro x hx
      show x ∈ (sourcesOf e.out).map (·.id)
      rw [(commit_sources h1).2, if_pos h.sys, List.map_append, List.mem_append]
      simp only [Act.commits, List.length_cons, List.length_nil] at hx
      by_cases hxn : x < n
      · exact Or.inl (h.sent x hxn)
      · right
        simp only [List.map_cons, List.map_nil, List.mem_singleton, hcur]
        omega
    | _ => rw [step_out_same hr rfl hs]; exact h.sent

end Netcode
