import Verif.Proofs.Gapless

/-!
# C78: without evictions nothing is skipped
-/

set_option linter.unusedSectionVars false

namespace Netcode

variable {w : Nat} {c : Cfg w} {io : Bool} {s : Sys}

/-- The sorted lists of all numbers below `n`. -/
theorem sorted_eq_range {l : List Nat} (hs : Sorted l) {n : Nat} (h : ∀ x, x ∈ l ↔ x < n) : l = List.range n := by
  refine List.Perm.eq_of_pairwise (le := (· < ·)) (fun a b _ _ h1 h2 => by omega) hs List.pairwise_lt_range ?_
  refine (List.perm_ext_iff_of_nodup (hs.imp Nat.ne_of_lt) List.nodup_range).2 (fun x => ?_)
  rw [h x, List.mem_range]

theorem map_range_getD {l : List (List Byte)} {n : Nat} (hn : n ≤ l.length) : (List.range n).map (fun x => l.getD x []) = l.take n := by
  apply List.ext_getElem?
  intro i
  rw [List.getElem?_map, List.getElem?_take]
  by_cases hi : i < n
  · rw [List.getElem?_range hi, if_pos hi]
    simp only [Option.map_some, List.getD_eq_getElem?_getD]
    rw [List.getElem?_eq_getElem (by omega)]; rfl
  · rw [if_neg hi, List.getElem?_eq_none (by rw [List.length_range]; omega)]; rfl

/-- The data handed over are those committed under the identifiers handed over. -/
theorem data_of_handed (hc : c.Ok) (h : Reach c io s) : s.dec.data = s.dec.det.handed.map (fun x => s.committed.getD x []) := by
  have := fact_of_valid hc.width
  obtain ⟨ems, A, ρ, L, W, K, hI⟩ := inv_of_reach hc h
  rw [hI.dataLog, Dec.handed, List.map_map]
  refine List.map_congr_left (fun ev hev => ?_)
  have := C01_integrity_by_id_partial hc h ev hev
  simp [List.getD_eq_getElem?_getD, this]

/-- **C78.** With ordering, no datum is skipped: the data handed over are the first ones committed. -/
theorem C78_prefix_partial (hc : c.Ok) (h : RoomReach c true s) : s.dec.data <+: s.committed := by
  have := fact_of_valid hc.width
  have hr := roomReach_reach h
  obtain ⟨ems, A, ρ, L, W, K, hI⟩ := inv_of_reach hc hr
  obtain ⟨ho, hf⟩ := hI.dinv.log.ord hI.io
  have hall : ∀ x < s.dec.det.firstMissing, x ∈ K := by
    intro x hx
    by_cases hL : L ≤ x
    · exact ho.full x hL hx
    · exact (hI.knows_iff x).1 (gapless_outdated hc h ((hI.outdated_iff x).2 (by omega)))
  have hrange : s.dec.det.handed = List.range s.dec.det.firstMissing :=
    sorted_eq_range ho.logSorted (fun x => (ho.logMem x).trans ⟨fun q => q.2, fun q => ⟨hall x q, q⟩⟩)
  have hle : s.dec.det.firstMissing ≤ s.committed.length := by
    by_contra hcon
    have := hI.knownLt _ (hall s.committed.length (by omega))
    omega
  rw [data_of_handed hc hr, hrange, map_range_getD hle]
  exact List.take_prefix _ _

/-- **C78.** What the encoder no longer keeps, and what is outdated for the decoder, the decoder has; what is outdated was handed
over. -/
theorem C78_nothing_forgotten_partial (hc : c.Ok) (h : RoomReach c io s) :
    (∀ x < s.committed.length, x ∉ s.enc.sources.map (·.id) → s.dec.det.HasData x (s.committed.getD x [])) ∧
    (∀ x, s.dec.det.Outdated x → x ∈ s.dec.det.handed) := by
  have := fact_of_valid hc.width
  have hr := roomReach_reach h
  obtain ⟨ems, A, ρ, L, W, K, hI⟩ := inv_of_reach hc hr
  constructor
  · intro x hx hn
    exact hI.hasData ((hI.knows_iff x).1 (((gapless_of_reach hc h).win x hx).resolve_left hn))
  · intro x hx
    have hk := (hI.knows_iff x).1 (gapless_outdated hc h hx)
    cases io with
    | false => exact ((hI.dinv.log.unord hI.io).2.1 x).2 hk
    | true =>
      obtain ⟨ho, _⟩ := hI.dinv.log.ord hI.io
      exact (ho.logMem x).2 ⟨hk, by have := ho.lo; rw [hI.outdated_iff] at hx; omega⟩

/-- **C78.** When the window of the encoder is empty, everything has been handed over. -/
theorem C78_empty_window_partial (hc : c.Ok) (h : RoomReach c io s) (he : s.enc.window = 0) :
    s.dec.data.Perm s.committed ∧ (io = true → s.dec.data = s.committed) := by
  have := fact_of_valid hc.width
  have hr := roomReach_reach h
  obtain ⟨ems, A, ρ, L, W, K, hI⟩ := inv_of_reach hc hr
  have hsrc : s.enc.sources = [] := List.eq_nil_of_length_eq_zero he
  have hK : ∀ x, x ∈ K ↔ x < s.committed.length := by
    intro x
    refine ⟨hI.knownLt x, fun hx => (hI.knows_iff x).1 (((gapless_of_reach hc h).win x hx).resolve_left ?_)⟩
    unfold Enc.win
    rw [hsrc]; simp
  have hrng : (List.range s.committed.length).map (fun x => s.committed.getD x []) = s.committed := by
    rw [map_range_getD (Nat.le_refl _), List.take_length]
  cases io with
  | false =>
    obtain ⟨h1, h2, _⟩ := hI.dinv.log.unord hI.io
    refine ⟨?_, by simp⟩
    rw [data_of_handed hc hr]
    conv_rhs => rw [← hrng]
    refine List.Perm.map _ ((List.perm_ext_iff_of_nodup h1 List.nodup_range).2 (fun x => ?_))
    rw [List.mem_range, ← hK]
    exact h2 x
  | true =>
    obtain ⟨ho, hf⟩ := hI.dinv.log.ord hI.io
    have hfm : s.committed.length ≤ s.dec.det.firstMissing := by
      by_contra hcon
      exact hf ((hK _).2 (by omega))
    have hrange : s.dec.det.handed = List.range s.committed.length :=
      sorted_eq_range ho.logSorted (fun x => (ho.logMem x).trans ⟨fun q => (hK x).1 q.1, fun q => ⟨(hK x).2 q, by omega⟩⟩)
    have : s.dec.data = s.committed := by rw [data_of_handed hc hr, hrange, hrng]
    exact ⟨this ▸ List.Perm.refl _, fun _ => this⟩

/-! ## Networks that lose packets but do not reorder them -/

theorem roomLine_line (h : RoomLine c io s) : LineReach c io s := by
  induction h with
  | init => exact .init
  | step _ h2 _ h4 ih => exact .step ih h2 h4

theorem roomLine_room (hc : c.Ok) (hw : w ≠ 32) (h : RoomLine c io s) (hn : s.committed.length < 2 ^ 16) : RoomReach c io s := by
  have := fact_of_valid hc.width
  induction h with
  | init => exact .init
  | step h1 h2 h3 h4 ih =>
    rw [step_committed h4, List.length_append] at hn
    exact .step (ih (by omega)) (line_allowed hc hw (line_reach hc hw (roomLine_line h1) (by omega)) (by omega) h2) h3 h4

/-- **C78.** With ordering, whatever is lost, the data handed over are the first ones committed. -/
theorem C78_prefix (hc : c.Ok) (hw : w ≠ 32) (h : RoomLine c true s) (hn : s.committed.length < 2 ^ 16) : s.dec.data <+: s.committed :=
  C78_prefix_partial hc (roomLine_room hc hw h hn)

/-- **C78.** Whatever is lost: a datum that has left the window of the encoder is known to the decoder, intact; one older than all the
decoder may still wait for was handed over. -/
theorem C78_nothing_forgotten (hc : c.Ok) (hw : w ≠ 32) (h : RoomLine c io s) (hn : s.committed.length < 2 ^ 16) :
    (∀ x < s.committed.length, x ∉ s.enc.sources.map (·.id) → s.dec.det.HasData x (s.committed.getD x [])) ∧
    (∀ x, s.dec.det.Outdated x → x ∈ s.dec.det.handed) :=
  C78_nothing_forgotten_partial hc (roomLine_room hc hw h hn)

/-- **C78.** Whatever was lost: when `window()` is 0, every datum committed was handed over exactly once, with ordering in order. -/
theorem C78_empty_window (hc : c.Ok) (hw : w ≠ 32) (h : RoomLine c io s) (hn : s.committed.length < 2 ^ 16) (he : s.enc.window = 0) :
    s.dec.data.Perm s.committed ∧ (io = true → s.dec.data = s.committed) :=
  C78_empty_window_partial hc (roomLine_room hc hw h hn) he

/-- A schedule used by the examples: a window of four sources that is never full when a datum is committed; source 1 is lost and
recovered, an ack empties the window, sources 3 and 4 are lost, then recovered from two repairs, and a last ack arrives. -/
def demoRoom : List Act :=
  [.setWindow 4, .setRate 3, .commit [1, 2], .commit [3], .commit [4, 5, 6], .deliver 0, .deliver 2, .deliver 3, .genAck, .ack 0,
   .commit [7], .commit [8, 9], .commit [10], .deliver 6, .deliver 7, .repair, .deliver 8, .genAck, .ack 1]
theorem demoRoom_line (io : Bool) (n : Nat) : RoomLine (cfg8 true) io (roomReached (cfg8 true) io (demoRoom.take n)) := by
  by_cases hn : n < 20
  · exact roomReached_line (by revert n; cases io <;> decide +kernel)
  · rw [List.take_of_length_le (by simp [demoRoom]; omega)]
    exact roomReached_line (by cases io <;> decide +kernel)

/-- Source 5 has arrived; 3 and 4 are missing: with ordering the data are the first three; then all are. -/
example (io : Bool) : let s := roomReached (cfg8 true) io (demoRoom.take 15)
    s.dec.data = (if io then [[1, 2], [3], [4, 5, 6]] else [[1, 2], [4, 5, 6], [3], [10]]) ∧ s.dec.det.missing.keys = [3, 4] ∧
    s.enc.window = 3 ∧ s.dec.det.lastId = some 3 := by cases io <;> decide +kernel
example : (roomReached (cfg8 true) true (demoRoom.take 15)).dec.data <+: [[1, 2], [3], [4, 5, 6], [7], [8, 9], [10]] := by
  have h := C78_prefix (cfg8_ok true) (by decide) (demoRoom_line true 15) (by decide +kernel)
  have h2 : (roomReached (cfg8 true) true (demoRoom.take 15)).committed = [[1, 2], [3], [4, 5, 6], [7], [8, 9], [10]] := by decide +kernel
  rwa [h2] at h
example (io : Bool) : let s := roomReached (cfg8 true) io (demoRoom.take 19)
    s.enc.window = 0 ∧ s.committed.length = 6 ∧ s.enc.windowSize = 4 ∧ s.dec.det.nbDecoded = 3 := by cases io <;> decide +kernel
example (io : Bool) : (roomReached (cfg8 true) io (demoRoom.take 19)).dec.data.Perm
    (roomReached (cfg8 true) io (demoRoom.take 19)).committed :=
  (C78_empty_window (cfg8_ok true) (by decide) (demoRoom_line io 19) (by cases io <;> decide +kernel) (by cases io <;> decide +kernel)).1

/-- The window must not be full: here a commit evicts source 0, which was lost, and the decoder skips it; the window is then emptied
by an ack, but source 0 was never handed over. -/
theorem C78_evicted (dbg io : Bool) :
    let s := lineReached (cfg8 dbg) io [.setWindow 1, .commit [1], .commit [2], .deliver 1, .repair, .deliver 2, .genAck, .ack 0]
    LineReach (cfg8 dbg) io s ∧ s.enc.window = 0 ∧ s.committed = [[1], [2]] ∧ s.dec.data = [[2]] :=
  ⟨lineReached_reach (by revert dbg io; decide +kernel), by revert dbg io; decide +kernel, by revert dbg io; decide +kernel,
    by revert dbg io; decide +kernel⟩

end Netcode
