import Verif.Model.NoMemDecode
import Verif.Props.NoMem
import Verif.Proofs.Lossless
import Verif.Proofs.DecAny

/-!
# C100: decoders that run out of memory while they decode

The statements use `NDec.notify`, `NDec.decodeM` and the packets of an encoder.
-/

namespace Netcode

open scoped Polynomial

variable {w : Nat} {gf : GF w} {dbg : Bool}

theorem fullDecodeM_none (s : Dec) :
    s.fullDecode gf dbg = (s.fullDecodeM gf dbg none).bind fun p => if p.2 then p.1.fullDecode gf dbg else .ok p.1 := by
  unfold Dec.fullDecodeM
  by_cases h1 : (s.repairs.isEmpty || s.missing.isEmpty) = true
  · simp only [h1, if_true, Dec.fullDecode]
    rfl
  · by_cases h2 : s.missing.length > s.repairs.length
    · simp only [h1, h2, if_true, Dec.fullDecode]
      rfl
    · by_cases h3 : cassert dbg (s.missing.length = s.repairs.length) = .ok ()
      · by_cases h4 : cassert dbg (s.missing.length > 1) = .ok ()
        · simp only [h1, h2, h3, h4]
          rfl
        · unfold Dec.fullDecode
          simp only [h1, h2, h3]
          unfold cassert at h4 ⊢
          split at h4
          · next h => simp only [h]; rfl
          · exact absurd rfl h4
      · unfold Dec.fullDecode
        simp only [h1, h2]
        unfold cassert at h3 ⊢
        split at h3
        · next h => simp only [h]; rfl
        · exact absurd rfl h3

theorem onRepairD_none (s : Dec) (r : DRepair) :
    s.onRepair gf dbg r = (s.onRepairD gf dbg none r).bind fun p => if p.2 then p.1.fullDecode gf dbg else .ok p.1 := by
  unfold Dec.onRepair Dec.onRepairD
  rcases cassert dbg (!r.ids.isEmpty) with f | _
  · rfl
  rcases r.ids.getLast? with _ | lastIn
  · rfl
  rcases r.ids.head? with _ | firstIn
  · rfl
  simp only [bind, Except.bind, pure, Except.pure]
  split
  · rfl
  split
  · rfl
  rcases s.dropOutdated dbg firstIn with f | s1
  · rfl
  simp only []
  split
  · rfl
  rcases ensure (linksAlive s1.repairs s1.missing (r.ids.filter (fun x => !s1.sources.has x))) .dangling with f | _
  · rfl
  rcases r.ids.reverse.foldlM (linkStep gf dbg s1.sources) (r, s1.missing) with f | ⟨r', missing⟩
  · rfl
  simp only []
  rcases cassert dbg (!r'.ids.isEmpty) with f | _
  · rfl
  simp only []
  split
  · rcases createSource gf dbg r' with f | src
    · rfl
    simp only []
    generalize addSource gf dbg _ src _ = o
    cases o <;> rfl
  · exact fullDecodeM_none _

/-- **C100.** If there is no memory for a matrix, decoding is only put off: had there been memory, the call would have gone on from the very state in which
the exception leaves the decoder.  A repair for which no matrix is needed is used as ever. -/
theorem C100_matrix (s s' : Dec) (r : DRepair) (x : Bool) (h : s.onRepairD gf dbg none r = .ok (s', x)) :
    s.onRepair gf dbg r = if x then s'.fullDecode gf dbg else .ok s' := by
  rw [onRepairD_none, h]
  rfl

theorem fullDecodeM_false (k : Option Nat) (s s' : Dec) (h : s.fullDecodeM gf dbg k = .ok (s', false)) : s.fullDecode gf dbg = .ok s' := by
  cases k with
  | none =>
    rw [fullDecodeM_none, h]
    rfl
  | some k =>
    unfold Dec.fullDecodeM at h
    by_cases h1 : (s.repairs.isEmpty || s.missing.isEmpty) = true
    · simp only [h1, if_true] at h
      cases h
      unfold Dec.fullDecode
      rw [if_pos h1]
      rfl
    by_cases h2 : s.missing.length > s.repairs.length
    · simp only [h1, h2, if_true] at h
      cases h
      unfold Dec.fullDecode
      rw [if_neg h1, if_pos h2]
      rfl
    simp only [h1, h2] at h
    obtain ⟨_, _, h⟩ := bind_ok_iff.1 h
    obtain ⟨_, _, h⟩ := bind_ok_iff.1 h
    obtain ⟨_, _, h⟩ := bind_ok_iff.1 h
    split at h
    · obtain ⟨s1, h4, h⟩ := bind_ok_iff.1 h
      cases h
      exact h4
    · obtain ⟨s1, h4, h⟩ := bind_ok_iff.1 h
      cases h

theorem onRepairD_false (k : Option Nat) (s s' : Dec) (r : DRepair) (h : s.onRepairD gf dbg k r = .ok (s', false)) :
    s.onRepair gf dbg r = .ok s' := by
  revert h
  unfold Dec.onRepair Dec.onRepairD
  rcases cassert dbg (!r.ids.isEmpty) with f | _
  · intro h; cases h
  rcases r.ids.getLast? with _ | lastIn
  · intro h; cases h
  rcases r.ids.head? with _ | firstIn
  · intro h; cases h
  simp only [bind, Except.bind, pure, Except.pure]
  split
  · intro h; cases h; rfl
  split
  · intro h; cases h; rfl
  rcases s.dropOutdated dbg firstIn with f | s1
  · intro h; cases h
  simp only []
  split
  · intro h; cases h; rfl
  rcases ensure (linksAlive s1.repairs s1.missing (r.ids.filter (fun x => !s1.sources.has x))) .dangling with f | _
  · intro h; cases h
  rcases r.ids.reverse.foldlM (linkStep gf dbg s1.sources) (r, s1.missing) with f | ⟨r', missing⟩
  · intro h; cases h
  simp only []
  rcases cassert dbg (!r'.ids.isEmpty) with f | _
  · intro h; cases h
  simp only []
  split
  · rcases createSource gf dbg r' with f | src
    · intro h; cases h
    simp only []
    generalize addSource gf dbg _ src _ = o
    rcases o with f | s2
    · intro h; cases h
    · intro h; cases h; rfl
  · exact fullDecodeM_false k _ _

/-- The loop over the missing sources, stopped early. -/
theorem decodeLoop_take (inv : Mat w) (reps : List DRepair) (l : List Nat) (k col : Nat) (s a b : Dec)
    (h1 : decodeLoop gf dbg inv reps col (l.take k) s = .ok a) (h2 : decodeLoop gf dbg inv reps col l s = .ok b) : a.log <+: b.log := by
  induction l generalizing k col s with
  | nil => rw [List.take_nil] at h1; rw [h1] at h2; cases h2; exact List.prefix_refl _
  | cons x t ih =>
    cases k with
    | zero =>
      unfold decodeLoop at h1
      cases h1
      exact (decodeLoop_ext gf dbg inv reps _ col _ _ h2).log
    | succ k =>
      rw [List.take_succ_cons] at h1
      unfold decodeLoop at h1 h2
      obtain ⟨y, g1, h1⟩ := bind_ok_iff.1 h1
      obtain ⟨s1, g2, h1⟩ := bind_ok_iff.1 h1
      obtain ⟨y', g3, h2⟩ := bind_ok_iff.1 h2
      obtain ⟨s2, g4, h2⟩ := bind_ok_iff.1 h2
      rw [g1] at g3; cases g3
      rw [g2] at g4; cases g4
      exact ih k _ _ h1 h2

theorem fullDecodeM_true (k : Nat) (s s' s2 : Dec) (h : s.fullDecodeM gf dbg (some k) = .ok (s', true)) (h2 : s.fullDecode gf dbg = .ok s2) :
    s2.repairs = [] ∧ s2.missing = [] ∧ s.nbDecoded + s.missing.length ≤ s2.nbDecoded ∧ 0 < s.missing.length ∧ s'.log <+: s2.log := by
  unfold Dec.fullDecodeM at h
  unfold Dec.fullDecode at h2
  by_cases h1 : (s.repairs.isEmpty || s.missing.isEmpty) = true
  · simp only [h1, if_true] at h
    cases h
  by_cases h3 : s.missing.length > s.repairs.length
  · simp only [h1, h3, if_true] at h
    cases h
  simp only [h1, h3] at h h2
  have hpos : 0 < s.missing.length := by
    cases hm : s.missing with
    | nil => rw [hm] at h1; simp at h1
    | cons a t => simp
  obtain ⟨_, _, h⟩ := bind_ok_iff.1 h
  obtain ⟨_, _, h⟩ := bind_ok_iff.1 h
  obtain ⟨_, _, h⟩ := bind_ok_iff.1 h
  obtain ⟨_, _, h2⟩ := bind_ok_iff.1 h2
  obtain ⟨_, _, h2⟩ := bind_ok_iff.1 h2
  obtain ⟨_, _, h2⟩ := bind_ok_iff.1 h2
  revert h h2
  cases invert gf s.repairs.length (coeffMatrix w s.repairs s.missing) with
  | error c =>
    intro h
    obtain ⟨s1, _, h⟩ := bind_ok_iff.1 h
    cases h
  | ok inv =>
    intro h h2
    obtain ⟨s1, g1, h⟩ := bind_ok_iff.1 h
    obtain ⟨t, g2, h2⟩ := bind_ok_iff.1 h2
    cases h
    cases h2
    have g3 := decodeLoop_take inv _ _ _ _ _ _ _ g1 g2
    exact ⟨rfl, rfl, Nat.add_le_add_right (decodeLoop_ext gf dbg inv _ _ _ _ _ g2).dec _, hpos, g3⟩

/-- **C100.** If there is no memory for a source that is decoded together with others, then there was nothing wrong with the repairs: with memory all missing
sources would have been decoded, and what was handed over before the exception is the beginning of what would have been handed over. -/
theorem C100_symbol (k : Nat) (s s' s2 : Dec) (r : DRepair) (h : s.onRepairD gf dbg (some k) r = .ok (s', true)) (h2 : s.onRepair gf dbg r = .ok s2) :
    s2.repairs = [] ∧ s2.missing = [] ∧ s.nbDecoded < s2.nbDecoded ∧ s'.log <+: s2.log := by
  revert h h2
  unfold Dec.onRepair Dec.onRepairD
  rcases cassert dbg (!r.ids.isEmpty) with f | _
  · intro h; cases h
  rcases r.ids.getLast? with _ | lastIn
  · intro h; cases h
  rcases r.ids.head? with _ | firstIn
  · intro h; cases h
  simp only [bind, Except.bind, pure, Except.pure]
  split
  · intro h; cases h
  split
  · intro h; cases h
  rcases hd : s.dropOutdated dbg firstIn with f | s1
  · intro h; cases h
  simp only []
  split
  · intro h; cases h
  rcases ensure (linksAlive s1.repairs s1.missing (r.ids.filter (fun x => !s1.sources.has x))) .dangling with f | _
  · intro h; cases h
  rcases r.ids.reverse.foldlM (linkStep gf dbg s1.sources) (r, s1.missing) with f | ⟨r', missing⟩
  · intro h; cases h
  simp only []
  rcases cassert dbg (!r'.ids.isEmpty) with f | _
  · intro h; cases h
  simp only []
  split
  · rcases createSource gf dbg r' with f | src
    · intro h; cases h
    simp only []
    generalize addSource gf dbg _ src _ = o
    rcases o with f | s2
    · intro h; cases h
    · intro h; cases h
  · intro h h2
    obtain ⟨a1, a2, a3, a4, a5⟩ := fullDecodeM_true k _ _ _ h h2
    have e := (dropOutdated_ext hd).dec
    simp only at a3 a4
    exact ⟨a1, a2, by omega, a5⟩

/-- What was handed over before the exception. -/
theorem onRepairD_log (s s' : Dec) (r : DRepair) (h : s.onRepairD gf dbg none r = .ok (s', true)) : s.log <+: s'.log := by
  revert h
  unfold Dec.onRepairD
  rcases cassert dbg (!r.ids.isEmpty) with f | _
  · intro h; cases h
  rcases r.ids.getLast? with _ | lastIn
  · intro h; cases h
  rcases r.ids.head? with _ | firstIn
  · intro h; cases h
  simp only [bind, Except.bind, pure, Except.pure]
  split
  · intro h; cases h
  split
  · intro h; cases h
  rcases hd : s.dropOutdated dbg firstIn with f | s1
  · intro h; cases h
  have hl := (dropOutdated_ext hd).log
  simp only []
  split
  · intro h; cases h
  rcases ensure (linksAlive s1.repairs s1.missing (r.ids.filter (fun x => !s1.sources.has x))) .dangling with f | _
  · intro h; cases h
  rcases r.ids.reverse.foldlM (linkStep gf dbg s1.sources) (r, s1.missing) with f | ⟨r', missing⟩
  · intro h; cases h
  simp only []
  rcases cassert dbg (!r'.ids.isEmpty) with f | _
  · intro h; cases h
  simp only []
  split
  · rcases createSource gf dbg r' with f | src
    · intro h; cases h
    simp only []
    generalize addSource gf dbg _ src _ = o
    rcases o with f | s2
    · intro h; cases h
    · intro h; cases h
  · intro h
    unfold Dec.fullDecodeM at h
    split at h
    · cases h
    split at h
    · cases h
    obtain ⟨_, _, h⟩ := bind_ok_iff.1 h
    obtain ⟨_, _, h⟩ := bind_ok_iff.1 h
    cases h
    exact hl

/-- The callbacks do not look at the state of `detail::decoder`. -/
theorem fold_det (clk : Clock) (evs : List Event) (d : NDec) (x : Dec) :
    ({ evs.foldl (NDec.handleSource clk) d with det := x } : NDec) = evs.foldl (NDec.handleSource clk) { d with det := x } := by
  induction evs generalizing d with
  | nil => rfl
  | cons ev t ih =>
    rw [List.foldl_cons, List.foldl_cons, ih]
    congr 1
    unfold NDec.handleSource NDec.maybeAckWith NDec.generateAckWith
    simp only
    split
    · rfl
    split
    · split <;> rfl
    · rfl

theorem afterDet_twice (clk : Clock) (d : NDec) (a b : Dec) (h1 : d.det.log <+: a.log) (h2 : a.log <+: b.log) :
    (d.afterDet clk a).afterDet clk b = d.afterDet clk b := by
  have hdet : (d.afterDet clk a).det = a := by unfold NDec.afterDet; rw [(fold_frame _ _ _).1]
  unfold NDec.afterDet at hdet ⊢
  rw [hdet, fold_det, ← List.foldl_append]
  obtain ⟨x, hx⟩ := h1
  obtain ⟨y, hy⟩ := h2
  congr 1
  rw [← hy, ← hx]
  simp

/-- **C100**, for the calls of the API.  A repair arrives.  If no exception leaves the call, all is as with memory, counters and acks too, whichever allocation of the
decoding would have failed.  If there was no memory for a matrix, the call would have gone on from the very state in which the exception leaves the decoder: the packet
is counted, what was handed over stays handed over, and acks that were due have been sent. -/
theorem C100_matrix_call (clk : Clock) (k : Option Nat) (d d' : NDec) (p : List Byte) (x : Bool) (hp : getPacketType p = .ok .repair)
    (h : d.decodeM gf dbg clk k p = .ok (d', x)) :
    ∃ res, (x = false → d.notify gf dbg clk p = .ok (d', res)) ∧
      (x = true → k = none → d.notify gf dbg clk p = (d'.det.fullDecode gf dbg).map fun det2 => (d'.afterDet clk det2, res)) := by
  unfold NDec.decodeM at h
  unfold NDec.notify
  simp only [hp]
  revert h
  rcases cassert dbg (decide (p.length ≠ 0)) with f | _
  · intro h; cases h
  simp only [bind, Except.bind, pure, Except.pure]
  rcases readRepair p with (f | e) | ⟨r, n⟩
  · intro h; cases h
    exact ⟨_, fun _ => rfl, fun hx => by cases hx⟩
  · intro h; cases h
  simp only []
  rcases ho : d.det.onRepairD gf dbg k r with f | ⟨det', y⟩
  · intro h; cases h
  intro h
  cases h
  refine ⟨.ok n, ?_, ?_⟩
  · intro hx
    subst hx
    rw [onRepairD_false k _ _ _ ho]
  · intro hx hk
    subst hx hk
    rw [C100_matrix _ _ _ _ ho]
    simp only [if_true]
    have hdet : (({ d with nbRepairs := d.nbRepairs + 1, ackPackets := (d.ackPackets + 1) % 2 ^ 16 } : NDec).afterDet clk det').det = det' := by
      unfold NDec.afterDet; rw [(fold_frame _ _ _).1]
    rw [hdet]
    rcases hf : det'.fullDecode gf dbg with f | det2
    · rfl
    · simp only [Except.map]
      rw [afterDet_twice]
      · exact onRepairD_log _ _ _ ho
      · exact (fullDecode_ext hf).log

/-- A source that cannot be kept: either all is as with memory, or the call would have gone on, by keeping the source, from the very state in which the
exception leaves the decoder. -/
theorem C100_source_node (s s' : Dec) (src : DSource) (x : Bool) (h : s.onSourceM gf dbg src = .ok (s', x)) :
    s.onSource gf dbg src = if x then (addSourceTail dbg src s').bind (fun t => t.fullDecode gf dbg) else .ok s' := by
  revert h
  unfold Dec.onSourceM Dec.onSource
  split
  · intro h; cases h; rfl
  split
  · intro h; cases h; rfl
  rcases hf : s.fuel with _ | fuel
  · intro h; cases h
  unfold addSource
  simp only [bind, Except.bind, pure, Except.pure]
  rcases addSourceHead gf dbg src s with f | s1
  · intro h; cases h
  simp only []
  rcases scanMissing gf dbg fuel s1.missing.keys.head? s1 with f | s2
  · intro h; cases h
  · intro h; cases h; rfl

theorem fold_counts (clk : Clock) (evs : List Event) (d : NDec) :
    (evs.foldl (NDec.handleSource clk) d).nbRepairs = d.nbRepairs ∧ (evs.foldl (NDec.handleSource clk) d).nbSources = d.nbSources := by
  induction evs generalizing d with
  | nil => exact ⟨rfl, rfl⟩
  | cons ev t ih =>
    rw [List.foldl_cons, (ih _).1, (ih _).2]
    unfold NDec.handleSource NDec.maybeAckWith NDec.generateAckWith
    simp only
    split
    · exact ⟨rfl, rfl⟩
    split
    · split <;> exact ⟨rfl, rfl⟩
    · exact ⟨rfl, rfl⟩

theorem linkFold_id (sources : OMap DSource) (ids : List Nat) (st st' : DRepair × OMap (List Nat))
    (h : ids.foldlM (linkStep gf dbg sources) st = .ok st') : st'.1.id = st.1.id := by
  induction ids generalizing st with
  | nil => cases h; rfl
  | cons x t ih =>
    rw [List.foldlM_cons] at h
    obtain ⟨st1, h1, h⟩ := bind_ok_iff.1 h
    rw [ih _ h]
    unfold linkStep at h1
    simp only at h1
    split at h1
    · obtain ⟨r1, h2, h1⟩ := bind_ok_iff.1 h1
      cases h1
      unfold removeData at h2
      obtain ⟨_, _, h2⟩ := bind_ok_iff.1 h2
      obtain ⟨_, _, h2⟩ := bind_ok_iff.1 h2
      obtain ⟨_, _, h2⟩ := bind_ok_iff.1 h2
      cases h2
      rfl
    · split at h1 <;> (cases h1; rfl)

/-- A repair that cannot be linked with a missing source. -/
theorem onRepairM_spec (k : Nat) (s s' : Dec) (r : DRepair) (x : Bool) (h : s.onRepairM gf dbg k r = .ok (s', x)) :
    (x = false → s.onRepair gf dbg r = .ok s') ∧
    (x = true → s'.nbDecoded + s'.nbFailed + s'.nbUseless = s.nbDecoded + s.nbFailed + s.nbUseless ∧ s.log <+: s'.log ∧
      r.id ∈ s'.repairs.keys) := by
  revert h
  unfold Dec.onRepairM Dec.onRepair
  rcases cassert dbg (!r.ids.isEmpty) with f | _
  · intro h; cases h
  rcases r.ids.getLast? with _ | lastIn
  · intro h; cases h
  rcases r.ids.head? with _ | firstIn
  · intro h; cases h
  simp only [bind, Except.bind, pure, Except.pure]
  split
  · intro h; cases h; exact ⟨fun _ => rfl, fun h => (by cases h)⟩
  split
  · intro h; cases h; exact ⟨fun _ => rfl, fun h => (by cases h)⟩
  rcases hd : s.dropOutdated dbg firstIn with f | s1
  · intro h; cases h
  simp only []
  split
  · intro h; cases h; exact ⟨fun _ => rfl, fun h => (by cases h)⟩
  rcases ensure (linksAlive s1.repairs s1.missing (r.ids.filter (fun x => !s1.sources.has x))) .dangling with f | _
  · intro h; cases h
  simp only []
  rcases hl : (r.ids.reverse.take k).foldlM (linkStep gf dbg s1.sources) (r, s1.missing) with f | ⟨r', missing⟩
  · intro h; cases h
  intro h
  cases h
  refine ⟨fun h => (by cases h), fun _ => ⟨(dropOutdated_uses hd).2, (dropOutdated_ext hd).log, ?_⟩⟩
  have := linkFold_id _ _ _ _ hl
  show r.id ∈ (s1.repairs.emplace r'.id r').map (·.1)
  rw [OMap.mem_keys_emplace]
  exact Or.inl this.symm

/-- **C100**, for the calls of the API, when a repair cannot be linked with a missing source: the packet is counted; if no exception leaves the call, all is as with
memory; otherwise no decoding is counted, neither one that succeeds nor one that fails, what was handed over stays, and the repair is held. -/
theorem C100_link_call (clk : Clock) (k : Nat) (d d' : NDec) (p : List Byte) (x : Bool) (hp : getPacketType p = .ok .repair)
    (h : d.linkM gf dbg clk k p = .ok (d', x)) :
    d'.nbRepairs = d.nbRepairs + 1 ∧ d'.nbSources = d.nbSources ∧ (d'.det.log = d.det.log → d'.ackPackets = (d.ackPackets + 1) % 2 ^ 16) ∧
    (x = false → ∃ res, d.notify gf dbg clk p = .ok (d', res)) ∧
    (x = true → d'.det.nbDecoded + d'.det.nbFailed + d'.det.nbUseless = d.det.nbDecoded + d.det.nbFailed + d.det.nbUseless ∧
      d.det.log <+: d'.det.log ∧ ∃ r n, readRepair p = .ok (r, n) ∧ r.id ∈ d'.det.repairs.keys) := by
  unfold NDec.linkM at h
  unfold NDec.notify
  simp only [hp]
  revert h
  rcases cassert dbg (decide (p.length ≠ 0)) with f | _
  · intro h; cases h
  simp only [bind, Except.bind, pure, Except.pure]
  rcases readRepair p with (f | e) | ⟨r, n⟩
  · intro h; cases h
    exact ⟨rfl, rfl, fun _ => rfl, fun _ => ⟨_, rfl⟩, fun hx => by cases hx⟩
  · intro h; cases h
  simp only []
  rcases ho : d.det.onRepairM gf dbg k r with f | ⟨det', y⟩
  · intro h; cases h
  intro h
  cases h
  have hs := onRepairM_spec k _ _ _ _ ho
  have hdet : (({ d with nbRepairs := d.nbRepairs + 1, ackPackets := (d.ackPackets + 1) % 2 ^ 16 } : NDec).afterDet clk det').det = det' := by
    unfold NDec.afterDet; rw [(fold_frame _ _ _).1]
  refine ⟨?_, ?_, ?_, ?_, ?_⟩
  · unfold NDec.afterDet; rw [(fold_counts _ _ _).1]
  · unfold NDec.afterDet; rw [(fold_counts _ _ _).2]
  · intro hl
    rw [hdet] at hl
    unfold NDec.afterDet
    simp [hl]
  · intro hx
    rw [hs.1 hx]
    exact ⟨_, rfl⟩
  · intro hx
    rw [hdet]
    obtain ⟨h1, h2, h3⟩ := hs.2 hx
    exact ⟨h1, h2, r, n, rfl, h3⟩

/-- Three repairs of sources 0 and 1, which do not arrive, and source 2. -/
def memMatrix : List Act := [.setRate 100, .commit [1], .commit [2], .repair, .repair, .repair, .commit [3], .deliver 2]

/-- The decoder that has the first repair gets the second one, without memory for what `k` tells, and then packet `j`. -/
def matrixDemo (dbg io : Bool) (k : Option Nat) (j : Nat) : Option (List (List Byte) × (List (List Byte) ⊕ Fault)) :=
  match (reached (cfg8 dbg) io memMatrix).enc.out[3]?, (reached (cfg8 dbg) io memMatrix).enc.out[j]? with
  | some (EPkt.repair r1), some p =>
    match (reached (cfg8 dbg) io memMatrix).dec.decodeM gf8 dbg (cfg8 dbg).clk k (EPkt.repair r1).bytes with
    | .ok (d, true) =>
      match d.notify gf8 dbg (cfg8 dbg).clk p.bytes with
      | .ok (d', _) => some (d.data, .inl d'.data)
      | .error f => some (d.data, .inr f)
    | _ => none
  | _, _ => none

theorem matrixDemo_spec {dbg io : Bool} {k : Option Nat} {j : Nat} {x : List (List Byte)} {y : List (List Byte) ⊕ Fault}
    (h : matrixDemo dbg io k j = some (x, y)) : ∃ s r p d, Reach (cfg8 dbg) io s ∧ EPkt.repair r ∈ s.enc.out ∧ p ∈ s.enc.out ∧
      s.committed = [[1], [2], [3]] ∧ s.dec.decodeM gf8 dbg (cfg8 dbg).clk k (EPkt.repair r).bytes = .ok (d, true) ∧ d.data = x ∧
      match y with
      | .inl z => ∃ d' n, d.notify gf8 dbg (cfg8 dbg).clk p.bytes = .ok (d', n) ∧ d'.data = z
      | .inr f => d.notify gf8 dbg (cfg8 dbg).clk p.bytes = .error f := by
  have hr : Reach (cfg8 dbg) io (reached (cfg8 dbg) io memMatrix) := reached_reach (by clear h; revert dbg io; decide +kernel)
  have hc : (reached (cfg8 dbg) io memMatrix).committed = [[1], [2], [3]] := by clear h hr; revert dbg io; decide +kernel
  unfold matrixDemo at h
  split at h
  · next r1 p h1 h2 =>
    split at h
    · next d hd =>
      split at h
      · next d' n hn =>
        cases h
        exact ⟨_, r1, p, d, hr, List.mem_of_getElem? h1, List.mem_of_getElem? h2, hc, hd, rfl, d', n, hn, rfl⟩
      · next f hn =>
        cases h
        exact ⟨_, r1, p, d, hr, List.mem_of_getElem? h1, List.mem_of_getElem? h2, hc, hd, rfl, hn⟩
    · cases h
  · cases h

/-- A matrix for which there is no memory, and the source that comes next, with which everything is decoded. -/
example (dbg : Bool) : ∃ s r p d d' n, Reach (cfg8 dbg) true s ∧ EPkt.repair r ∈ s.enc.out ∧ p ∈ s.enc.out ∧
    s.dec.decodeM gf8 dbg (cfg8 dbg).clk none (EPkt.repair r).bytes = .ok (d, true) ∧ d.data = [] ∧
    d.notify gf8 dbg (cfg8 dbg).clk p.bytes = .ok (d', n) ∧ d'.data = [[1], [2], [3]] := by
  have h : matrixDemo dbg true none 5 = some ([], .inl [[1], [2], [3]]) := by revert dbg; decide +kernel
  obtain ⟨s, r, p, d, h1, h2, h3, _, h5, h6, d', n, h7, h8⟩ := matrixDemo_spec h
  exact ⟨s, r, p, d, d', n, h1, h2, h3, h5, h6, h7, h8⟩

/-- **C100 fails** for a decoder: if there is no memory for a matrix, then the next repair makes the decoder read memory that it did not write (an
assertion fails, with assertions). -/
theorem C100_false_matrix (dbg io : Bool) : ∃ s r r' d, Reach (cfg8 dbg) io s ∧ EPkt.repair r ∈ s.enc.out ∧ r' ∈ s.enc.out ∧
    s.dec.decodeM gf8 dbg (cfg8 dbg).clk none (EPkt.repair r).bytes = .ok (d, true) ∧
    d.notify gf8 dbg (cfg8 dbg).clk r'.bytes = .error (if dbg then .assertion else .ub .staleRead) := by
  have h : matrixDemo dbg io none 4 = some ([], .inr (if dbg then .assertion else .ub .staleRead)) := by revert dbg io; decide +kernel
  obtain ⟨s, r, p, d, h1, h2, h3, _, h5, _, h7⟩ := matrixDemo_spec h
  exact ⟨s, r, p, d, h1, h2, h3, h5, h7⟩

/-- **C100 fails** for a decoder: if there is no memory for the second of the sources that are decoded together, then the first one was handed over, and is
handed over again after the next source. -/
theorem C100_false_decoded : ∃ s r p d d' n, Reach (cfg8 false) false s ∧ EPkt.repair r ∈ s.enc.out ∧ p ∈ s.enc.out ∧ s.committed = [[1], [2], [3]] ∧
    s.dec.decodeM gf8 false (cfg8 false).clk (some 1) (EPkt.repair r).bytes = .ok (d, true) ∧
    d.notify gf8 false (cfg8 false).clk p.bytes = .ok (d', n) ∧ d'.data = [[1], [3], [1], [2]] := by
  have h : matrixDemo false false (some 1) 5 = some ([[1]], .inl [[1], [3], [1], [2]]) := by decide +kernel
  obtain ⟨s, r, p, d, h1, h2, h3, h4, h5, _, d', n, h7, h8⟩ := matrixDemo_spec h
  exact ⟨s, r, p, d, d', n, h1, h2, h3, h4, h5, h7, h8⟩

/-- The same decoder gets the second repair without memory for the second source, and with memory: what is handed over. -/
def symbolDemo (dbg : Bool) : Option (List (List Byte) × List (List Byte)) :=
  match (reached (cfg8 dbg) false memMatrix).enc.out[3]? with
  | some (EPkt.repair r) =>
    match readRepair (EPkt.repair r).bytes with
    | .ok (r, _) =>
      match (reached (cfg8 dbg) false memMatrix).dec.det.onRepairD gf8 dbg (some 1) r, (reached (cfg8 dbg) false memMatrix).dec.det.onRepair gf8 dbg r with
      | .ok (a, true), .ok b => some (a.log.map (·.data), b.log.map (·.data))
      | _, _ => none
    | _ => none
  | _ => none

example (dbg : Bool) : symbolDemo dbg = some ([[1]], [[1], [2]]) := by revert dbg; decide +kernel

/-- **C100.** A repair from which no source is rebuilt directly is used as ever, and one from which a source would have been rebuilt ends the program: these are
the only two ends. -/
theorem C100_rebuild (s : Dec) (r : DRepair) :
    (∀ s', s.onRepairS gf dbg r = .ok (some s') → s.onRepair gf dbg r = .ok s') ∧
    (∀ s', s.onRepairS gf dbg r = .ok none → s.onRepair gf dbg r = .ok s' → s.nbDecoded < s'.nbDecoded) := by
  unfold Dec.onRepair Dec.onRepairS
  rcases cassert dbg (!r.ids.isEmpty) with f | _
  · exact ⟨fun _ h => (by cases h), fun _ h => (by cases h)⟩
  rcases r.ids.getLast? with _ | lastIn
  · exact ⟨fun _ h => (by cases h), fun _ h => (by cases h)⟩
  rcases r.ids.head? with _ | firstIn
  · exact ⟨fun _ h => (by cases h), fun _ h => (by cases h)⟩
  simp only [bind, Except.bind, pure, Except.pure]
  split
  · exact ⟨fun _ h => (by cases h; rfl), fun _ h => (by cases h)⟩
  split
  · exact ⟨fun _ h => (by cases h; rfl), fun _ h => (by cases h)⟩
  rcases hd : s.dropOutdated dbg firstIn with f | s1
  · exact ⟨fun _ h => (by cases h), fun _ h => (by cases h)⟩
  simp only []
  split
  · exact ⟨fun _ h => (by cases h; rfl), fun _ h => (by cases h)⟩
  rcases ensure (linksAlive s1.repairs s1.missing (r.ids.filter (fun x => !s1.sources.has x))) .dangling with f | _
  · exact ⟨fun _ h => (by cases h), fun _ h => (by cases h)⟩
  rcases r.ids.reverse.foldlM (linkStep gf dbg s1.sources) (r, s1.missing) with f | ⟨r', missing⟩
  · exact ⟨fun _ h => (by cases h), fun _ h => (by cases h)⟩
  simp only []
  rcases cassert dbg (!r'.ids.isEmpty) with f | _
  · exact ⟨fun _ h => (by cases h), fun _ h => (by cases h)⟩
  simp only []
  split
  · refine ⟨fun _ h => (by cases h), fun s' _ h => ?_⟩
    revert h
    rcases createSource gf dbg r' with f | src
    · intro h; cases h
    · intro h
      have h1 := ((add_scan_ext gf dbg _).1 _ _ _ h).dec
      have h2 := (dropOutdated_ext hd).dec
      simp only at h1
      omega
  · refine ⟨fun s' h => ?_, fun s' h => ?_⟩
    · revert h
      generalize Dec.fullDecode gf dbg _ = o
      rcases o with f | s2
      · intro h; cases h
      · intro h; cases h; rfl
    · revert h
      generalize Dec.fullDecode gf dbg _ = o
      rcases o with f | s2
      · intro h; cases h
      · intro h; cases h

/-- **C100**, for the calls of the API: either all is as with memory, counters and acks too, or the program ends, and then a source would have been decoded. -/
theorem C100_rebuild_call (clk : Clock) (d : NDec) (p : List Byte) (hp : getPacketType p = .ok .repair) :
    (∀ d', d.rebuildM gf dbg clk p = .ok (.done d') → ∃ res, d.notify gf dbg clk p = .ok (d', res)) ∧
    (d.rebuildM gf dbg clk p = .ok .terminate → ∀ d' res, d.notify gf dbg clk p = .ok (d', res) → d.det.nbDecoded < d'.det.nbDecoded) := by
  unfold NDec.rebuildM NDec.notify
  simp only [hp]
  rcases cassert dbg (decide (p.length ≠ 0)) with f | _
  · exact ⟨fun _ h => (by cases h), fun h => (by cases h)⟩
  simp only [bind, Except.bind, pure, Except.pure]
  rcases readRepair p with (f | e) | ⟨r, n⟩
  · exact ⟨fun _ h => (by cases h; exact ⟨_, rfl⟩), fun h => (by cases h)⟩
  · exact ⟨fun _ h => (by cases h), fun h => (by cases h)⟩
  simp only []
  have hR := C100_rebuild (gf := gf) (dbg := dbg) d.det r
  rcases ho : d.det.onRepairS gf dbg r with f | _ | det'
  · exact ⟨fun _ h => (by cases h), fun h => (by cases h)⟩
  · refine ⟨fun _ h => (by cases h), fun _ d' res h => ?_⟩
    rcases hn : d.det.onRepair gf dbg r with f | det2
    · rw [hn] at h; cases h
    · rw [hn] at h
      cases h
      have := hR.2 det2 ho hn
      unfold NDec.afterDet
      rw [(fold_frame _ _ _).1]
      exact this
  · refine ⟨fun d' h => ?_, fun h => (by cases h)⟩
    cases h
    rw [hR.1 det' ho]
    exact ⟨_, rfl⟩

/-- Two sources and their repair; the first source is lost. -/
def memRebuild : List Act := [.setRate 100, .commit [1], .commit [2], .repair, .deliver 1]

/-- The number of data handed over with memory, if the program ends without. -/
def rebuildDemo (dbg io : Bool) : Option Nat :=
  match (reached (cfg8 dbg) io memRebuild).enc.out[2]? with
  | some (EPkt.repair r) =>
    match (reached (cfg8 dbg) io memRebuild).dec.rebuildM gf8 dbg (cfg8 dbg).clk (EPkt.repair r).bytes,
      (reached (cfg8 dbg) io memRebuild).dec.notify gf8 dbg (cfg8 dbg).clk (EPkt.repair r).bytes with
    | .ok .terminate, .ok (d, .ok _) => some d.data.length
    | _, _ => none
  | _ => none

/-- **C100 fails** for a decoder: if there is no memory for the source that is rebuilt from a repair, no exception reaches the caller, the program ends. -/
theorem C100_false_terminate (dbg io : Bool) : ∃ s r d n, Reach (cfg8 dbg) io s ∧ EPkt.repair r ∈ s.enc.out ∧
    s.dec.rebuildM gf8 dbg (cfg8 dbg).clk (EPkt.repair r).bytes = .ok .terminate ∧
    s.dec.notify gf8 dbg (cfg8 dbg).clk (EPkt.repair r).bytes = .ok (d, .ok n) ∧ d.data.length = 2 := by
  have h : rebuildDemo dbg io = some 2 := by revert dbg io; decide +kernel
  unfold rebuildDemo at h
  split at h
  · next r h1 =>
    split at h
    · next d n h2 h3 =>
      have hl : d.data.length = 2 := by injection h
      exact ⟨_, r, d, n, reached_reach (by clear h h1 h2 h3 hl; revert dbg io; decide +kernel), List.mem_of_getElem? h1, h2, h3, hl⟩
    · cases h
  · cases h

end Netcode
