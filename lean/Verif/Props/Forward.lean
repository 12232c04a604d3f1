import Verif.Model.Tools
import Verif.Props.Encoder
import Verif.Proofs.Trail

/-!
# C72: the forwarder of sources
-/

namespace Netcode

variable {w : Nat}

theorem forwardAll_append (a b : List (List Byte × List Byte)) (h : (forwardAll a).2 = none) :
    forwardAll (a ++ b) = ((forwardAll a).1 ++ (forwardAll b).1, (forwardAll b).2) := by
  induction a with
  | nil => rfl
  | cons p t ih =>
    obtain ⟨d, junk⟩ := p
    simp only [List.cons_append, forwardAll] at h ⊢
    cases hf : forwardOne d junk with
    | error x => rw [hf] at h; cases h
    | ok l =>
      rw [hf] at h
      simp only at h ⊢
      rw [ih h, List.append_assoc]

theorem readSource_parts (id : Nat) (hi : id < 2 ^ 32) (sym rest : List Byte) (hl : sym.length < 2 ^ 16) :
    readSource (beBytes 1 2 ++ beBytes 4 id ++ beBytes 2 sym.length ++ sym ++ rest) = .ok ({ id := id, sym := sym }, 7 + sym.length) := by
  have e : beBytes 1 2 ++ beBytes 4 id ++ beBytes 2 sym.length ++ sym ++ rest
      = (beBytes 1 2 ++ (beBytes 4 id ++ (beBytes 2 sym.length ++ (sym ++ [])))) ++ rest := by simp
  have r2 := reads_int 4 id
  rw [Nat.mod_eq_of_lt (by simpa using hi)] at r2
  have r3 := reads_int 2 sym.length
  rw [Nat.mod_eq_of_lt (by simpa using hl)] at r3
  have h : Reads headReader (beBytes 1 2 ++ (beBytes 4 id ++ (beBytes 2 sym.length ++ (sym ++ [])))) (id, sym.length) :=
    reads_bind (reads_int 1 2) (reads_bind r2 (reads_bind r3 (reads_bind (reads_skip sym) (reads_pure _))))
  obtain ⟨c', e1, _, hp⟩ := h _ (whole _) rest (at_whole _)
  rw [e, readSource_eq, e1]
  simp only [Except.map, Except.ok.injEq, Prod.mk.injEq, DSource.mk.injEq, true_and]
  constructor
  · have : (beBytes 1 2 ++ (beBytes 4 id ++ (beBytes 2 sym.length ++ (sym ++ [])))) ++ rest
        = (beBytes 1 2 ++ beBytes 4 id ++ beBytes 2 sym.length) ++ (sym ++ rest) := by simp
    rw [this, List.drop_append_of_le_length (by simp [beBytes_length, headerSize]),
      List.drop_of_length_le (by simp [beBytes_length, headerSize])]
    simp
  · rw [hp]; simp [whole, beBytes_length]; omega

theorem beBytes_two : beBytes 1 2 = [2#8] := by decide

/-- A datagram that begins with a source whose announced data are in the buffer. -/
theorem forward_parts (id : Nat) (hi : id < 2 ^ 32) (d sym junk rest : List Byte) (hd : 0 < d.length) (hl : sym.length < 2 ^ 16)
    (h : receivedAck d junk = beBytes 1 2 ++ beBytes 4 id ++ beBytes 2 sym.length ++ sym ++ rest) : forwardOne d junk = .ok [sym] := by
  unfold forwardOne
  simp only [h]
  rw [readSource_parts id hi sym rest hl]
  simp [hd, beBytes_two]

theorem forward_source (s : ESource) (junk : List Byte) (hi : s.id < 2 ^ 32) (hl : s.sym.length ≤ 4089) :
    forwardOne (writeSource s).flatten junk = .ok [s.sym] := by
  have e : (writeSource s).flatten = beBytes 1 2 ++ beBytes 4 s.id ++ beBytes 2 s.sym.length ++ s.sym := by simp [writeSource]
  have hlen : (writeSource s).flatten.length = 7 + s.sym.length := by rw [e]; simp [beBytes_length]; omega
  refine forward_parts s.id hi _ s.sym junk (junk.take (smallBuffer - (writeSource s).flatten.length)) (by omega) (by omega) ?_
  unfold receivedAck
  rw [List.take_of_length_le (by rw [hlen]; simp [smallBuffer]; omega), ← e]

theorem forward_repair (r : ERepair) (junk : List Byte) : forwardOne (writeRepair r).flatten junk = .ok [] := by
  obtain ⟨t, ht⟩ : ∃ t, (writeRepair r).flatten = 1#8 :: t := by
    simp [writeRepair, beBytes]
  unfold forwardOne
  rw [ht]
  simp [receivedAck, smallBuffer]

/-- **C72.** Of the packets of an encoder, in whatever order and however often they arrive, the forwarder sends on the data of the
sources, in the order in which they arrive, whatever else the buffer contains; the data are those committed. -/
theorem C72_forwards {gf : GF w} {F : F64} {dbg : Bool} {acts : List EAct} {e : Enc} (hn : (commitsOf acts).length ≤ 2 ^ 32)
    (h : Enc.init.after gf F dbg acts = .ok e) (hlen : ∀ d ∈ commitsOf acts, d.length ≤ 4089) (arrivals : List (EPkt × List Byte))
    (ha : ∀ p ∈ arrivals, p.1 ∈ e.out) :
    forwardAll (arrivals.map (fun p => (p.1.bytes, p.2))) = ((sourcesOf (arrivals.map (·.1))).map (·.sym), none) ∧
      ∀ s ∈ sourcesOf (arrivals.map (·.1)), (commitsOf acts)[s.id]? = some s.sym := by
  have hs := (C26_numbers hn h).2
  induction arrivals with
  | nil => exact ⟨rfl, fun s hs => by cases hs⟩
  | cons p t ih =>
    obtain ⟨q, junk⟩ := p
    obtain ⟨h1, h2⟩ := ih (fun p hp => ha p (List.mem_cons_of_mem _ hp))
    have hq := ha _ List.mem_cons_self
    cases q with
    | repair r =>
      refine ⟨?_, h2⟩
      simp only [List.map_cons, sourcesOf, forwardAll, EPkt.bytes, EPkt.chunks, forward_repair] at h1 ⊢
      rw [h1]; rfl
    | source s =>
      have hc := hs s hq
      have hlt := (List.getElem?_eq_some_iff.1 hc).1
      have hmem := List.mem_of_getElem? hc
      constructor
      · simp only [List.map_cons, sourcesOf, forwardAll, EPkt.bytes, EPkt.chunks] at h1 ⊢
        rw [forward_source s junk (by omega) (hlen _ hmem)]
        simp only
        rw [h1]; rfl
      · intro x hx
        simp only [List.map_cons, sourcesOf, List.mem_cons] at hx
        rcases hx with rfl | hx
        · exact hc
        · exact h2 x hx

/-- **C72.** When nothing is lost, repeated or reordered, that is, all the packets of a systematic encoder arrive, all data committed are
sent on, in order. -/
theorem C72_all {gf : GF w} {F : F64} {dbg : Bool} {acts : List EAct} {e : Enc} (hn : (commitsOf acts).length ≤ 2 ^ 32)
    (h : Enc.init.after gf F dbg acts = .ok e) (hlen : ∀ d ∈ commitsOf acts, d.length ≤ 4089)
    (hsys : ∀ b, .setSystematic b ∈ acts → b = true) (junk : List Byte) :
    forwardAll (e.out.map (fun p => (p.bytes, junk))) = (commitsOf acts, none) := by
  have h1 := (C72_forwards hn h hlen (e.out.map (fun p => (p, junk))) (by
    intro p hp
    obtain ⟨q, hq, rfl⟩ := List.mem_map.1 hp
    exact hq)).1
  simp only [List.map_map, Function.comp_def, List.map_id'] at h1
  rw [h1, C26_all_sources h hsys]

/-- **C72 fails for short datagrams**: of a datagram that is shorter than it says, all of what it says is sent on, up to the end of the
buffer: bytes that nobody sent. -/
theorem C72_false_short (id : Nat) (hi : id < 2 ^ 32) (d junk : List Byte) (n : Nat) (hn : d.length < n) (hn2 : n ≤ 4089)
    (hj : 4096 ≤ junk.length) :
    forwardOne (2#8 :: beBytes 4 id ++ beBytes 2 n ++ d) junk = .ok [d ++ junk.take (n - d.length)] := by
  have hl : (d ++ junk.take (n - d.length)).length = n := by simp; omega
  have e0 : (2#8 :: beBytes 4 id ++ beBytes 2 n ++ d) = beBytes 1 2 ++ beBytes 4 id ++ beBytes 2 n ++ d := by simp [beBytes_two]
  have hlen : (2#8 :: beBytes 4 id ++ beBytes 2 n ++ d).length = 7 + d.length := by rw [e0]; simp [beBytes_length]; omega
  refine forward_parts id hi _ (d ++ junk.take (n - d.length)) junk
    ((junk.take (smallBuffer - (7 + d.length))).drop (n - d.length)) (by omega) (by omega) ?_
  unfold receivedAck
  rw [hlen, List.take_of_length_le (by rw [hlen]; simp [smallBuffer]; omega), hl, e0]
  simp only [List.append_assoc, List.append_cancel_left_eq]
  have h3 := List.take_append_drop (n - d.length) (junk.take (smallBuffer - (7 + d.length)))
  rw [List.take_take, Nat.min_eq_left (by simp [smallBuffer]; omega)] at h3
  exact h3.symm

/-- **C72.** A datagram on which the parser throws ends the program: what came before it has been sent on, and nothing that comes after it
is. -/
theorem C72_stops (before after : List (List Byte × List Byte)) (p : List Byte × List Byte) (x : TStop) (hb : (forwardAll before).2 = none)
    (hx : forwardOne p.1 p.2 = .error x) : forwardAll (before ++ p :: after) = ((forwardAll before).1, some x) := by
  rw [forwardAll_append before _ hb]
  simp [forwardAll, hx]

example : forwardOne [2#8] [] = .error (.exn .overflow) := rfl

/-- **C72 fails for long data**: a source of more than 4089 bytes ends the program. -/
theorem C72_false_long (s : ESource) (junk : List Byte) (hi : s.id < 2 ^ 32) (hl : 4089 < s.sym.length) (hl2 : s.sym.length < 2 ^ 16) :
    forwardOne (writeSource s).flatten junk = .error (.exn .overflow) := by
  have e : (writeSource s).flatten = beBytes 1 2 ++ beBytes 4 s.id ++ beBytes 2 s.sym.length ++ s.sym := by simp [writeSource]
  have hlen : (writeSource s).flatten.length = 7 + s.sym.length := by rw [e]; simp [beBytes_length]; omega
  have hb : receivedAck (writeSource s).flatten junk = (writeSource s).flatten.take 4096 := by
    unfold receivedAck
    rw [hlen, show smallBuffer - (7 + s.sym.length) = 0 by simp [smallBuffer]; omega]
    simp [smallBuffer]
  have hr : readSource (writeSource s).flatten = .ok ({ id := s.id, sym := s.sym }, 7 + s.sym.length) := by
    have := readSource_parts s.id hi s.sym [] hl2
    rwa [List.append_nil, ← e] at this
  have ht := readSource_trunc (k := 4096) hr (by omega)
  have hh : ((writeSource s).flatten.take 4096).head? = some 2#8 := by rw [e]; simp [beBytes_two]
  unfold forwardOne
  simp only [hb, ht, hh, hlen]
  simp

/-- Two data, and a repair of both; the packets arrive in another order, the second twice. -/
example (junk : List Byte) : ((Enc.init.after gf8 F0 true [.commit [1, 2], .commit [3], .repair]).map
    (fun e => forwardAll ([1, 2, 0, 1].filterMap (fun i => (e.out[i]?).map (fun p => (p.bytes, junk)))))).toOption =
    some ([[3], [1, 2], [3]], none) := by
  obtain ⟨e, he, hout⟩ : ∃ e, Enc.init.after gf8 F0 true [.commit [1, 2], .commit [3], .repair] = .ok e ∧
      ∃ r, e.out = [.source ⟨0, [1, 2]⟩, .source ⟨1, [3]⟩, .repair r] := by
    refine ⟨_, rfl, _, rfl⟩
  obtain ⟨r, hr⟩ := hout
  have h1 := (C72_forwards (by decide) he (by decide) ([(.source ⟨1, [3]⟩, junk), (.repair r, junk), (.source ⟨0, [1, 2]⟩, junk),
    (.source ⟨1, [3]⟩, junk)]) (by rw [hr]; simp)).1
  rw [he]
  simp only [Except.map, hr, Except.toOption]
  exact congrArg some h1
example : forwardOne [2, 0, 0, 0, 7, 0, 3, 9] (List.replicate 4096 5) = .ok [[9, 5, 5]] :=
  C72_false_short 7 (by decide) [9] (List.replicate 4096 5) 3 (by decide) (by decide) (by rw [List.length_replicate])

end Netcode
