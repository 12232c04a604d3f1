import Verif.Props.Keep
import Verif.Props.Length
import Verif.Props.AnySched

/-!
# The lists of sources in packets, whatever the network does (C60, C84)

`C60_genuine` and `C84_ack` are about the permitted schedules.  Here are all histories of an encoder, with any bytes for acks, and of a decoder,
with any bytes for packets.
-/

namespace Netcode

variable {w : Nat} {gf : GF w} {F : F64} {dbg : Bool}

theorem encodeStep_ids {r r' : ERepair} {s : ESource} (h : encodeStep gf r s = .ok r') : r'.ids = setInsert r.ids s.id := by
  unfold encodeStep at h
  simp only [bind_ok_iff, pure_ok_iff] at h
  obtain ⟨_, _, rfl⟩ := h
  rfl

theorem encodeRepair_form {id : Nat} {S : List ESource} {r : ERepair} (h : encodeRepair gf dbg id S = .ok r) :
    r.ids ≠ [] ∧ Sorted r.ids ∧ ∀ x, x ∈ r.ids ↔ x ∈ S.map (·.id) := by
  cases S with
  | nil => cases dbg <;> cases h
  | cons s t =>
    simp only [encodeRepair, bind_ok_iff] at h
    obtain ⟨sym, -, h⟩ := h
    have key : ∀ (t : List ESource) (r0 r : ERepair), t.foldlM (encodeStep gf) r0 = .ok r → Sorted r0.ids →
        Sorted r.ids ∧ ∀ x, x ∈ r.ids ↔ x ∈ r0.ids ∨ x ∈ t.map (·.id) := by
      intro t
      induction t with
      | nil => intro r0 r h hs; cases h; exact ⟨hs, fun x => by simp⟩
      | cons a u ih =>
        intro r0 r h hs
        rw [List.foldlM_cons, bind_ok_iff] at h
        obtain ⟨r1, h1, h2⟩ := h
        have e := encodeStep_ids h1
        obtain ⟨g1, g2⟩ := ih r1 r h2 (by rw [e]; exact sorted_setInsert _ hs _)
        refine ⟨g1, fun x => ?_⟩
        rw [g2, e, mem_setInsert, List.map_cons, List.mem_cons]
        tauto
    obtain ⟨g1, g2⟩ := key t _ r h (List.pairwise_singleton _ _)
    refine ⟨?_, g1, fun x => by rw [g2, List.map_cons, List.mem_cons]; simp⟩
    intro h0
    have := (g2 s.id).2 (.inl (by simp))
    rw [h0] at this
    cases this

/-- What an encoder keeps of the numbers of sources. -/
structure EForm (e : Enc) : Prop where
  cur : e.curSrc < 2 ^ 32
  src : ∀ s ∈ e.sources, s.id < 2 ^ 32
  out : ∀ r, .repair r ∈ e.out → r.ids ≠ [] ∧ Sorted r.ids ∧ ∀ x ∈ r.ids, x < 2 ^ 32

theorem EForm.sentRepair {e : Enc} (h : EForm e) {rid : Nat} {r : ERepair} (hr : encodeRepair gf dbg rid e.sources = .ok r) :
    EForm (e.sentRepair r) := by
  refine ⟨h.cur, h.src, fun q hq => ?_⟩
  rcases List.mem_append.1 hq with hq | hq
  · exact h.out q hq
  · rw [List.mem_singleton] at hq
    cases hq
    obtain ⟨g0, g1, g2⟩ := encodeRepair_form hr
    refine ⟨g0, g1, fun x hx => ?_⟩
    obtain ⟨s, hs, rfl⟩ := List.mem_map.1 ((g2 x).1 hx)
    exact h.src s hs

theorem EForm.sentSource {e : Enc} (h : EForm e) (s : ESource) : EForm (e.sentSource s) := by
  refine ⟨h.cur, h.src, fun q hq => ?_⟩
  rcases List.mem_append.1 hq with hq | hq
  · exact h.out q hq
  · rw [List.mem_singleton] at hq
    cases hq

theorem EForm.act {e e' : Enc} {a : EAct} (h : EForm e) (ha : e.act gf F dbg a = .ok e') : EForm e' := by
  cases a with
  | commit d =>
    obtain ⟨e1, e2, rfl, h2, -, h4⟩ := commit_inv ha
    have f1 : EForm { e with sources := e.room ++ [⟨e.curSrc, d⟩] } := by
      refine ⟨h.cur, fun s hs => ?_, h.out⟩
      rcases List.mem_append.1 hs with hs | hs
      · exact h.src s ((room_sublist e).subset hs)
      · rw [List.mem_singleton] at hs
        rw [hs]; exact h.cur
    have f2 : EForm e2 := by
      rcases h2 with ⟨-, rfl⟩ | ⟨-, r, hr, rfl⟩
      · exact f1.sentSource _
      · exact f1.sentRepair hr
    have lt : (e2.curSrc + 1) % 2 ^ 32 < 2 ^ 32 := Nat.mod_lt _ (by decide)
    rcases h4 with ⟨-, rfl⟩ | ⟨-, r, hr, rfl⟩
    · exact ⟨lt, f2.src, f2.out⟩
    · have f3 := f2.sentRepair hr
      exact ⟨lt, f3.src, f3.out⟩
  | repair =>
    obtain ⟨r, hr, rfl⟩ := generateRepair_inv ha
    exact h.sentRepair hr
  | setRate n =>
    simp only [Enc.act, Enc.setRate, bind_ok_iff, pure_ok_iff] at ha
    obtain ⟨_, _, rfl⟩ := ha
    exact ⟨h.cur, h.src, h.out⟩
  | setWindow n =>
    simp only [Enc.act, Enc.setWindowSize, bind_ok_iff, pure_ok_iff] at ha
    obtain ⟨_, _, rfl⟩ := ha
    exact ⟨h.cur, h.src, h.out⟩
  | setAdaptive b => cases ha; exact ⟨h.cur, h.src, h.out⟩
  | setSystematic b => cases ha; exact ⟨h.cur, h.src, h.out⟩
  | packet p =>
    rcases packet_inv ha with rfl | ⟨-, rfl⟩ | ⟨a, n, -, -, rfl⟩
    · exact h
    · exact ⟨h.cur, h.src, h.out⟩
    · exact ⟨h.cur, fun s hs => h.src s ((eraseIds_sublist _ _).subset hs), h.out⟩

/-- **C60**: the repairs of an encoder after any calls, as many as there may be, and any bytes for acks, list at least one source, and list them
in increasing order, each once, with numbers that have 32 bits: so they meet the conditions of `C60_repair_layout`. -/
theorem C60_repairs_any {acts : List EAct} {e : Enc} (h : Enc.init.after gf F dbg acts = .ok e) {r : ERepair}
    (hr : .repair r ∈ e.out) : r.ids ≠ [] ∧ Sorted r.ids ∧ ∀ x ∈ r.ids, x < 2 ^ 32 :=
  (after_induct (gf := gf) (F := F) (dbg := dbg) (Q := fun _ e => EForm e) Enc.init ⟨by decide, (by intro s hs; cases hs), (by intro r hr; cases hr)⟩
    (fun _ _ _ _ _ hi ha => hi.act ha) acts e h).out r hr

/-- What a decoder keeps of the numbers of sources for acks. -/
structure AckForm (d : NDec) : Prop where
  ids : Sorted d.ackIds
  packets : d.ackPackets < 2 ^ 16
  out : ∀ a ∈ d.out, Sorted a.ids ∧ a.nbPackets < 2 ^ 16

theorem AckForm.generate {d : NDec} (h : AckForm d) (held : List Nat) : AckForm (d.generateAckWith held) := by
  refine ⟨List.Pairwise.nil, by show (0 : Nat) < 2 ^ 16; decide, fun a ha => ?_⟩
  rcases List.mem_append.1 ha with ha | ha
  · exact h.out a ha
  · rw [List.mem_singleton] at ha
    subst ha
    exact ⟨foldl_setInsert_sorted _ _ h.ids, h.packets⟩

theorem AckForm.maybe {d : NDec} (h : AckForm d) (clk : Clock) (held : List Nat) : AckForm (d.maybeAckWith clk held) := by
  have g := h.generate held
  unfold NDec.maybeAckWith
  split
  · exact ⟨g.ids, g.packets, g.out⟩
  · split
    · have h' : AckForm { d with ticks := d.ticks + 1 } := ⟨h.ids, h.packets, h.out⟩
      have g' := h'.generate held
      dsimp only
      split
      · exact ⟨g'.ids, g'.packets, g'.out⟩
      · exact h'
    · exact h

theorem AckForm.fold (clk : Clock) (evs : List Event) {d : NDec} (h : AckForm d) : AckForm (evs.foldl (NDec.handleSource clk) d) := by
  induction evs generalizing d with
  | nil => exact h
  | cons ev t ih =>
    rw [List.foldl_cons]
    have h' : AckForm { d with data := d.data ++ [ev.data] } := ⟨h.ids, h.packets, h.out⟩
    exact ih (h'.maybe clk ev.held)

theorem AckForm.act {clk : Clock} {d d' : NDec} {a : DAct} (h : AckForm d) (ha : d.act gf dbg clk a = .ok d') : AckForm d' := by
  have lt : ∀ n : Nat, n % 2 ^ 16 < 2 ^ 16 := fun n => Nat.mod_lt _ (by decide)
  cases a with
  | packet p =>
    simp only [NDec.act, map_ok_iff] at ha
    obtain ⟨⟨d1, r⟩, h1, rfl⟩ := ha
    cases notify_got h1 with
    | other => exact h
    | badSource => exact ⟨h.ids, lt _, h.out⟩
    | badRepair => exact ⟨h.ids, lt _, h.out⟩
    | source s n det' _ _ ho => exact AckForm.fold clk _ ⟨h.ids, lt _, h.out⟩
    | repair s n det' _ _ ho => exact AckForm.fold clk _ ⟨h.ids, lt _, h.out⟩
  | genAck => cases ha; exact h.generate _
  | maybeAck => cases ha; exact h.maybe _ _
  | setAckNb n =>
    simp only [NDec.act, NDec.setAckNb, bind_ok_iff, pure_ok_iff] at ha
    obtain ⟨_, _, rfl⟩ := ha
    exact ⟨h.ids, h.packets, h.out⟩
  | setAckPeriod ms => cases ha; exact ⟨h.ids, h.packets, h.out⟩

theorem partialSums_lt (l : List Nat) (a : Nat) : ∀ x ∈ partialSums a l, x < 2 ^ 32 := by
  induction l generalizing a with
  | nil => intro x hx; cases hx
  | cons d t ih =>
    intro x hx
    rcases List.mem_cons.1 hx with rfl | hx
    · exact Nat.mod_lt _ (by decide)
    · exact ih _ x hx

theorem readInt_four {p : List Byte} {c c' : Cur} {n : Nat} (h : readInt p 4 c = .ok (n, c')) : n < 2 ^ 32 := by
  unfold readInt at h
  split at h
  · cases h
  · split at h
    · cases h
    · cases h
      refine Nat.lt_of_lt_of_le (beNat_lt _) (Nat.le_trans (Nat.pow_le_pow_right (by decide) (List.length_take_le _ _)) ?_)
      decide

theorem named_lt {p : List Byte} {x : Nat} (h : NamedBy p x) : x < 2 ^ 32 := by
  rcases h with ⟨-, s, n, h1, rfl⟩ | ⟨-, r, n, h1, hx⟩
  · rw [readSource_eq] at h1
    obtain ⟨⟨⟨id, sz⟩, c⟩, h2, h3⟩ := map_ok_inv h1
    cases h3
    unfold headReader at h2
    obtain ⟨_, _, -, h2⟩ := rbind_inv h2
    obtain ⟨_, _, h4, h2⟩ := rbind_inv h2
    obtain ⟨_, _, -, h2⟩ := rbind_inv h2
    obtain ⟨_, _, -, h2⟩ := rbind_inv h2
    cases h2
    exact readInt_four h4
  · rw [readRepair_eq] at h1
    obtain ⟨⟨r', c⟩, h2, h3⟩ := map_ok_inv h1
    cases h3
    unfold repairReader at h2
    obtain ⟨_, _, -, h2⟩ := rbind_inv h2
    obtain ⟨ids, _, h4, h2⟩ := rbind_inv h2
    obtain ⟨_, _, -, h2⟩ := rbind_inv h2
    cases h2
    rw [readIds_eq] at h4
    obtain ⟨nb, _, -, h6⟩ := rbind_inv h4
    split at h6
    · cases h6; cases hx
    · obtain ⟨_, _, -, h7⟩ := rbind_inv h6
      obtain ⟨_, _, -, h8⟩ := rbind_inv h7
      cases h8
      simp only [foldl_setInsert_mem, List.not_mem_nil, false_or] at hx
      exact partialSums_lt _ _ x hx

/-- **C60**: so do the acks of a decoder after any calls and any bytes, and the number of packets they report has 16 bits. -/
theorem C60_acks_any {clk : Clock} {io : Bool} {acts : List DAct} {d : NDec} (h : (NDec.init clk io).after gf dbg clk acts = .ok d) {a : Ack}
    (ha : a ∈ d.out) : Sorted a.ids ∧ (∀ x ∈ a.ids, x < 2 ^ 32) ∧ a.nbPackets < 2 ^ 16 := by
  obtain ⟨h1, h2⟩ := (nafter_induct AckForm (fun _ _ _ hi hs => hi.act hs) acts _ d
    ⟨List.Pairwise.nil, by show (0 : Nat) < 2 ^ 16; decide, (by intro a ha; cases ha)⟩ h).out a ha
  refine ⟨h1, fun x hx => ?_, h2⟩
  obtain ⟨p, -, hp⟩ := C89_named gf dbg clk io acts d h x (.inr (.inr ⟨a, ha, hx⟩))
  exact named_lt hp

/-- **C84.** Whatever a decoder is given: an ack is 5 bytes long if it names no source, and otherwise 9 bytes and less than 3 for each source. -/
theorem C84_ack_any {clk : Clock} {io : Bool} {acts : List DAct} {d : NDec} (h : (NDec.init clk io).after gf dbg clk acts = .ok d) {a : Ack}
    (ha : a ∈ d.out) :
    (writeAck a).flatten.length = (if a.ids = [] then 5 else 9 + 3 * nbRuns a.ids) ∧ nbRuns a.ids + 1 ≤ max a.ids.length 1 := by
  obtain ⟨h1, h2, -⟩ := C60_acks_any h ha
  refine ⟨?_, nbRuns_lt _⟩
  split
  · next h0 => simp [writeAck, h0, writeIds, beBytes_length]
  · next h0 =>
    simp only [writeAck, List.flatten_append, List.length_append, writeIds_len h0 h1 h2]
    simp [beBytes_length]; omega

/-- Two sources, the later one first: the ack names both in increasing order, in 9 + 3 bytes. -/
example : ((NDec.init (fun _ => 0) false).after gf8 true (fun _ => 0)
      [.packet [2, 0, 0, 0, 4, 0, 1, 7], .packet [2, 0, 0, 0, 2, 0, 1, 9], .genAck]).toOption.map
      (fun d => d.out.map (fun a => (a.ids, (writeAck a).flatten.length))) = some [([2, 4], 12)] := by decide +kernel

/-- An encoder whose window holds two sources, after an ack for a source it never sent and bytes that are not an ack: its repair lists both. -/
example : (Enc.init.after gf8 F0 true
      [.setWindow 2, .commit [1], .commit [2], .commit [3], .packet [9], .packet [0, 0, 1, 0, 1, 0, 0, 0, 7], .repair]).toOption.map
      (fun e => e.out.filterMap (fun p => match p with | .repair r => some r.ids | _ => none)) = some [[1, 2]] := by decide +kernel

end Netcode
