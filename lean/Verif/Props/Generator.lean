import Verif.Model.Generator
import Verif.Proofs.Wire
import Verif.Props.OneWay
import Verif.Props.Tunnel

/-! # The generator of traffic and the accelerators (C95) -/

namespace Netcode

/-- A datagram of `k` times the same four bytes. -/
theorem repeated_iff (k : Nat) (d b : List Byte) (hb : b.length = 4) :
    d = (List.replicate k b).flatten ↔ d.length = 4 * k ∧ ∀ i < k, slice4 d (i * 4) = b := by
  induction k generalizing d with
  | zero => simp
  | succ k ih =>
    rw [List.replicate_succ, List.flatten_cons]
    constructor
    · rintro rfl
      have h0 := (ih _).1 rfl
      refine ⟨by rw [List.length_append, h0.1, hb]; omega, fun i hi => ?_⟩
      cases i with
      | zero => simp [slice4, hb]
      | succ i =>
        have := h0.2 i (by omega)
        unfold slice4 at this ⊢
        rw [List.drop_append, List.drop_of_length_le (by omega), List.nil_append, hb, show (i + 1) * 4 - 4 = i * 4 by omega]
        exact this
    · rintro ⟨h1, h2⟩
      have e : d = d.take 4 ++ d.drop 4 := (List.take_append_drop 4 d).symm
      have h3 := h2 0 (by omega)
      simp only [slice4, Nat.zero_mul, List.drop_zero] at h3
      rw [e, h3]
      congr 1
      refine (ih _).2 ⟨by rw [List.length_drop]; omega, fun i hi => ?_⟩
      have := h2 (i + 1) (by omega)
      unfold slice4 at this ⊢
      rw [List.drop_drop, show 4 + i * 4 = (i + 1) * 4 by omega]
      exact this

theorem beBytes_beNat4 (d : List Byte) (h : d.length = 4) : beBytes 4 (beNat d) = d := by
  match d, h with
  | [a, b, c, e], _ =>
    have ha := a.isLt
    have hb := b.isLt
    have hc := c.isLt
    have he := e.isLt
    simp only [beNat, List.foldl, beBytes, List.cons.injEq, and_true]
    refine ⟨?_, ?_, ?_, ?_⟩ <;> apply BitVec.eq_of_toNat_eq <;> simp only [BitVec.toNat_ofNat] <;> omega

theorem beNat_lt4 (d : List Byte) (h : d.length = 4) : beNat d < 2 ^ 32 := by
  have := beNat_beBytes 4 (beNat d)
  rw [beBytes_beNat4 d h] at this
  rw [this]
  exact Nat.mod_lt _ (by decide)

theorem genPacket_some {size id : Nat} {p : List Byte} (h : genPacket size id = some p) :
    id < 2 ^ 32 ∧ p = (List.replicate (size / 4) (beBytes 4 id)).flatten := by
  unfold genPacket at h
  split at h
  · exact ⟨by assumption, by cases h; rfl⟩
  · cases h

/-- What the check of one datagram finds. -/
theorem genValidate_ok {size : Nat} (h4 : size % 4 = 0) (hs : 4 ≤ size) (id : Nat) (d : List Byte) :
    genValidate size id d = .ok () ↔ genPacket size id = some d := by
  have hk : ∃ k, size = 4 * k ∧ 1 ≤ k := ⟨size / 4, by omega, by omega⟩
  obtain ⟨k, rfl, hk⟩ := hk
  have e : 4 * k / 4 = k := by omega
  unfold genValidate
  constructor
  · intro h
    split at h
    · cases h
    split at h
    · cases h
    split at h
    · rename_i h1 h2 h3
      simp only [ne_eq, Decidable.not_not] at h1 h2
      rw [List.all_eq_true] at h3
      have ht : (d.take 4).length = 4 := by rw [List.length_take]; omega
      have hid : id < 2 ^ 32 := by rw [← h2]; exact beNat_lt4 _ ht
      unfold genPacket
      rw [if_pos hid, e]
      congr 1
      refine ((repeated_iff k d _ (beBytes_length _ _)).2 ⟨h1, fun i hi => ?_⟩).symm
      rw [← h2, beBytes_beNat4 _ ht]
      cases i with
      | zero => simp [slice4]
      | succ i =>
        have := h3 (i + 1) (by rw [List.mem_range'_1]; omega)
        simpa using this
    · cases h
  · intro h
    obtain ⟨hid, rfl⟩ := genPacket_some h
    rw [e]
    obtain ⟨h1, h2⟩ := (repeated_iff k _ (beBytes 4 id) (beBytes_length _ _)).1 rfl
    have h3 := h2 0 (by omega)
    simp only [slice4, Nat.zero_mul, List.drop_zero] at h3
    rw [if_neg (by simpa using h1), h3, beNat_beBytes]
    rw [if_neg (by simp only [ne_eq, Decidable.not_not]; exact Nat.mod_eq_of_lt (by exact hid))]
    rw [if_pos]
    rw [List.all_eq_true]
    intro i hi
    rw [List.mem_range'_1] at hi
    rw [h2 i (by omega)]
    simp

theorem genPacket_length {size id : Nat} {p : List Byte} (h : genPacket size id = some p) : p.length = size / 4 * 4 := by
  obtain ⟨_, rfl⟩ := genPacket_some h
  simp [beBytes_length]

/-- **C95.** With a size that is a multiple of 4 and not 0, the server goes on as long as the datagrams that it gets, cut at 4096 bytes, are
those of the client, from the first one on, in their order, and no longer. -/
theorem C95_accepts_iff {size : Nat} (h4 : size % 4 = 0) (hs : 4 ≤ size) (l : List (List Byte)) (n m : Nat) :
    genServer size n l = (m, none) ↔ m = n + l.length ∧ ∀ i d, l[i]? = some d → genPacket size (n + i) = some (d.take 4096) := by
  induction l generalizing n with
  | nil => simp [genServer, eq_comm]
  | cons d t ih =>
    have key := genValidate_ok h4 hs n (d.take 4096)
    unfold genServer
    cases hv : genValidate size n (d.take 4096) with
    | ok _ =>
      have hd := key.1 (by rw [hv])
      simp only
      rw [ih]
      constructor
      · rintro ⟨h1, h2⟩
        refine ⟨by rw [h1, List.length_cons]; omega, fun i x hx => ?_⟩
        cases i with
        | zero => simp only [List.getElem?_cons_zero, Option.some.injEq] at hx; rw [← hx]; exact hd
        | succ i =>
          rw [show n + (i + 1) = n + 1 + i by omega]
          exact h2 i x (by simpa using hx)
      · rintro ⟨h1, h2⟩
        refine ⟨by rw [h1, List.length_cons]; omega, fun i x hx => ?_⟩
        rw [show n + 1 + i = n + (i + 1) by omega]
        exact h2 (i + 1) x (by simpa using hx)
    | error e =>
      simp only [Prod.mk.injEq, reduceCtorEq, and_false, false_iff]
      rintro ⟨_, h2⟩
      have := key.2 (h2 0 d rfl)
      rw [hv] at this
      cases this

/-- The datagram with a number. -/
def genBytes (size id : Nat) : List Byte := (List.replicate (size / 4) (beBytes 4 id)).flatten

theorem genClient_eq (size : Nat) {n : Nat} (hn : n ≤ 2 ^ 32) : genClient size n = (List.range n).map (genBytes size) := by
  induction n with
  | zero => rfl
  | succ n ih =>
    rw [genClient, ih (by omega), List.range_succ, List.map_append, genPacket, if_pos (by omega)]
    rfl

/-- **C95.** Of a client that is told to send more than 2^32 datagrams, no more are sent. -/
theorem C95_false_many (size k : Nat) : genPacket size (2 ^ 32 + k) = none ∧ genClient size (2 ^ 32 + k) = genClient size (2 ^ 32) := by
  have h : ∀ k, genPacket size (2 ^ 32 + k) = none := fun k => by unfold genPacket; rw [if_neg (by omega)]
  refine ⟨h k, ?_⟩
  induction k with
  | zero => rfl
  | succ k ih => rw [← Nat.add_assoc, genClient, ih, h]; exact List.append_nil _

theorem genBytes_length (size id : Nat) : (genBytes size id).length = size / 4 * 4 := by simp [genBytes, beBytes_length]

theorem genPacket_eq (size : Nat) {id : Nat} (h : id < 2 ^ 32) : genPacket size id = some (genBytes size id) := by
  unfold genPacket genBytes; rw [if_pos h]

theorem genBytes_take4 {size : Nat} (hs : 4 ≤ size) {id : Nat} (h : id < 2 ^ 32) : beNat ((genBytes size id).take 4) = id := by
  have hk : ∃ k, size / 4 = k + 1 := ⟨size / 4 - 1, by omega⟩
  obtain ⟨k, hk⟩ := hk
  unfold genBytes
  rw [hk, List.replicate_succ, List.flatten_cons, List.take_append_of_le_length (by rw [beBytes_length]),
    List.take_of_length_le (by rw [beBytes_length]), beNat_beBytes]
  exact Nat.mod_eq_of_lt (by exact h)

/-- Another number is found out. -/
theorem genValidate_other {size : Nat} (h4 : size % 4 = 0) (hs : 4 ≤ size) {id j : Nat} (hj : j < 2 ^ 32) (h : j ≠ id) :
    genValidate size id (genBytes size j) = .error .id := by
  unfold genValidate
  rw [if_neg (by simp only [ne_eq, Decidable.not_not]; rw [genBytes_length]; omega), genBytes_take4 hs hj, if_pos h]

theorem genServer_ids {size : Nat} (h4 : size % 4 = 0) (hs : 4 ≤ size) (hl : size ≤ 4096) (ids : List Nat) (n : Nat)
    (h1 : ids.Pairwise (· < ·)) (h2 : ∀ x ∈ ids, n ≤ x) (h3 : ∀ x ∈ ids, x < 2 ^ 32) :
    ∃ m ≤ ids.length, ids.take m = List.range' n m ∧
      ((m = ids.length ∧ genServer size n (ids.map (genBytes size)) = (n + m, none)) ∨
       (m < ids.length ∧ n + m ∉ ids ∧ genServer size n (ids.map (genBytes size)) = (n + m, some .id))) := by
  induction ids generalizing n with
  | nil => exact ⟨0, Nat.le_refl _, rfl, Or.inl ⟨rfl, rfl⟩⟩
  | cons x t ih =>
    have hx : x < 2 ^ 32 := h3 x (by simp)
    have ht : (genBytes size x).take 4096 = genBytes size x := List.take_of_length_le (by rw [genBytes_length]; omega)
    rw [List.pairwise_cons] at h1
    by_cases e : x = n
    · subst e
      have hv : genValidate size x (genBytes size x) = .ok () := (genValidate_ok h4 hs _ _).2 (genPacket_eq size hx)
      obtain ⟨m, g1, g2, g3⟩ := ih (x + 1) h1.2 (fun y hy => h1.1 y hy) (fun y hy => h3 y (by simp [hy]))
      refine ⟨m + 1, by simpa using g1, by rw [List.take_succ_cons, g2, List.range'_succ], ?_⟩
      simp only [List.map_cons, genServer, ht, hv, List.length_cons, Nat.add_right_cancel_iff, Nat.add_lt_add_iff_right]
      rw [show x + (m + 1) = x + 1 + m by omega]
      rcases g3 with ⟨g3, g4⟩ | ⟨g3, g5, g4⟩
      · exact Or.inl ⟨g3, g4⟩
      · refine Or.inr ⟨g3, ?_, g4⟩
        rw [List.mem_cons]
        rintro (q | q)
        · omega
        · exact g5 q
    · refine ⟨0, Nat.zero_le _, rfl, Or.inr ⟨by simp, ?_, ?_⟩⟩
      · rw [Nat.add_zero, List.mem_cons]
        rintro (q | q)
        · exact e q.symm
        · have := h1.1 n q
          have := h2 x (by simp)
          omega
      · simp only [List.map_cons, genServer, ht, genValidate_other h4 hs hx e, Nat.add_zero]

/-- **C95.** Over a network that loses datagrams, but does not change, repeat or reorder them: the server accepts all until the first loss, and
stops at the first datagram after it, because of its number. -/
theorem C95_detects {size : Nat} (h4 : size % 4 = 0) (hs : 4 ≤ size) (hl : size ≤ 4096) {n : Nat} {l : List (List Byte)}
    (h : l.Sublist (genClient size n)) :
    ∃ m ≤ l.length, l.take m = genClient size m ∧
      ((m = l.length ∧ genServer size 0 l = (m, none)) ∨
       (m < l.length ∧ (∀ p, genPacket size m = some p → p ∉ l) ∧ genServer size 0 l = (m, some .id))) := by
  have hN : ∃ N ≤ 2 ^ 32, l.Sublist (genClient size N) := by
    rcases Nat.le_total n (2 ^ 32) with q | q
    · exact ⟨n, q, h⟩
    · refine ⟨2 ^ 32, Nat.le_refl _, ?_⟩
      rw [show n = 2 ^ 32 + (n - 2 ^ 32) by omega, (C95_false_many size _).2] at h
      exact h
  obtain ⟨N, hN, h⟩ := hN
  rw [genClient_eq size hN, List.sublist_map_iff] at h
  obtain ⟨ids, h1, rfl⟩ := h
  have hlt : ∀ x ∈ ids, x < 2 ^ 32 := fun x hx => by
    have := List.mem_range.1 (h1.subset hx); omega
  obtain ⟨m, g1, g2, g3⟩ := genServer_ids h4 hs hl ids 0 (List.pairwise_lt_range.sublist h1) (fun x _ => Nat.zero_le x) hlt
  simp only [Nat.zero_add] at g3
  have hm : m ≤ 2 ^ 32 := by
    have := h1.length_le
    rw [List.length_range] at this
    omega
  refine ⟨m, by simpa using g1, ?_, ?_⟩
  · rw [← List.map_take, g2, genClient_eq size hm, List.range_eq_range']
  · rw [List.length_map]
    rcases g3 with g3 | ⟨g3, g4, g5⟩
    · exact Or.inl g3
    · refine Or.inr ⟨g3, fun p hp hpl => ?_, g5⟩
      obtain ⟨x, hx, rfl⟩ := List.mem_map.1 hpl
      have e := genPacket_some hp
      have e1 : genBytes size x = genBytes size m := e.2
      have e2 := genBytes_take4 hs (hlt x hx)
      rw [e1, genBytes_take4 hs e.1] at e2
      exact g4 (e2 ▸ hx)

/-- **C95.** Without a loss, a client and a server with the same size work together exactly if it is a multiple of 4 from 4 to 4096. -/
theorem C95_size_iff (size : Nat) {n : Nat} (hn : 2 ≤ n) (hn' : n ≤ 2 ^ 32) :
    genServer size 0 (genClient size n) = (n, none) ↔ size % 4 = 0 ∧ 4 ≤ size ∧ size ≤ 4096 := by
  have hc : genClient size n = genBytes size 0 :: genBytes size 1 :: (List.range' 2 (n - 2)).map (genBytes size) := by
    rw [genClient_eq size hn', List.range_eq_range', show n = (n - 2) + 1 + 1 by omega, List.range'_succ, List.range'_succ]
    rfl
  constructor
  · intro h
    have hsz : size % 4 = 0 ∧ size ≤ 4096 := by
      by_contra q
      have hv : genValidate size 0 ((genBytes size 0).take 4096) = .error .size := by
        unfold genValidate
        rw [if_pos (by rw [List.length_take, genBytes_length]; omega)]
      rw [hc, genServer, hv] at h
      cases h
    refine ⟨hsz.1, ?_, hsz.2⟩
    by_contra q
    have h0 : size = 0 := by omega
    subst h0
    rw [hc] at h
    have e : ∀ i, genBytes 0 i = [] := fun i => rfl
    simp only [e, genServer, List.take_nil] at h
    rw [show genValidate 0 0 [] = .ok () from rfl] at h
    simp only at h
    rw [show genValidate 0 (0 + 1) [] = .error .id from rfl] at h
    cases h
  · rintro ⟨h1, h2, h3⟩
    rw [C95_accepts_iff h1 h2]
    refine ⟨by rw [genClient_eq size hn']; simp, fun i d hd => ?_⟩
    rw [genClient_eq size hn', List.getElem?_map, Option.map_eq_some_iff] at hd
    obtain ⟨x, hx, rfl⟩ := hd
    obtain ⟨hi, hx⟩ := List.getElem?_eq_some_iff.1 hx
    rw [List.getElem_range] at hx
    subst hx
    rw [List.length_range] at hi
    rw [Nat.zero_add, genPacket_eq size (by omega), List.take_of_length_le (by rw [genBytes_length]; omega)]

/-- **C95 fails** for other sizes: the server rejects the first datagram of the client. -/
theorem C95_false_size {size : Nat} (h : size % 4 ≠ 0 ∨ 4096 < size) {n : Nat} (hn : 1 ≤ n) :
    genServer size 0 (genClient size n) = (0, some .size) := by
  have hv : genValidate size 0 ((genBytes size 0).take 4096) = .error .size := by
    unfold genValidate
    rw [if_pos (by rw [List.length_take, genBytes_length]; omega)]
  have hd : ∃ t, genClient size n = genBytes size 0 :: t := by
    induction n, hn using Nat.le_induction with
    | base => exact ⟨[], rfl⟩
    | succ n _ ih =>
      obtain ⟨t, ht⟩ := ih
      exact ⟨t ++ (genPacket size n).toList, by rw [genClient, ht]; rfl⟩
  obtain ⟨t, ht⟩ := hd
  rw [ht, genServer, hv]

/-! ## Through the accelerators -/

/-- **C95, in part.** The client sends through the one-way accelerator: the server accepts all datagrams until the first one that is not handed
over, and never finds one that was changed. -/
theorem C95_oneway_partial {c : Cfg 8} {late : Bool} (hc : c.Ok) {t : OneWay} (h : OneReach c late t) {size n : Nat} (h4 : size % 4 = 0)
    (hs : 4 ≤ size) (hl : size ≤ 4096) (hsent : t.sent = genClient size n) :
    ∃ m ≤ t.dec.data.length, t.dec.data.take m = genClient size m ∧
      ((m = t.dec.data.length ∧ genServer size 0 t.dec.data = (m, none)) ∨
       (m < t.dec.data.length ∧ (∀ p, genPacket size m = some p → p ∉ t.dec.data) ∧ genServer size 0 t.dec.data = (m, some .id))) :=
  C95_detects h4 hs hl (hsent ▸ C67_data_partial hc h)

/-- **C95, in part.** The same through the accelerator that carries both directions, at either side. -/
theorem C95_tunnel_partial {c : Cfg 8} {late : Bool} (hc : c.Ok) {t : Tun} (h : TReach c late t) (x : Bool) {size n : Nat} (h4 : size % 4 = 0)
    (hs : 4 ≤ size) (hl : size ≤ 4096) (hsent : (t.side x).sent = genClient size n) :
    ∃ m ≤ (t.side !x).dec.data.length, (t.side !x).dec.data.take m = genClient size m ∧
      ((m = (t.side !x).dec.data.length ∧ genServer size 0 (t.side !x).dec.data = (m, none)) ∨
       (m < (t.side !x).dec.data.length ∧ (∀ p, genPacket size m = some p → p ∉ (t.side !x).dec.data) ∧
        genServer size 0 (t.side !x).dec.data = (m, some .id))) :=
  C95_detects h4 hs hl (hsent ▸ C59_data_partial hc h x)

/-! Instances -/

/-- Datagram 1 of five is lost. -/
example : genServer 8 0 [genBytes 8 0, genBytes 8 2, genBytes 8 3, genBytes 8 4] = (1, some .id) ∧
    [genBytes 8 0, genBytes 8 2, genBytes 8 3, genBytes 8 4].Sublist (genClient 8 5) ∧
    genClient 8 2 = [[0, 0, 0, 0, 0, 0, 0, 0], [0, 0, 0, 1, 0, 0, 0, 1]] := by decide +kernel

/-- A datagram that was changed, and one of another size. -/
example : genServer 8 0 [[0, 0, 0, 0, 0, 0, 1, 0]] = (0, some .data) ∧ genServer 8 0 [[0, 0, 0, 0]] = (0, some .size) := by decide +kernel

/-- The default size of 1024 bytes, and one that does not work. -/
example : genServer 1024 0 (genClient 1024 1048576) = (1048576, none) := (C95_size_iff 1024 (by decide) (by decide)).2 (by decide)
example : genServer 1022 0 (genClient 1022 1048576) = (0, some .size) := C95_false_size (by decide) (by decide)

/-- The client through the one-way accelerator, which loses packet 1 and recovers it. -/
example (dbg : Bool) : (OneWay.run (cfg8 dbg) (OneWay.init (cfg8 dbg).clk) ((genClient 8 5).map .app ++
    [.packet 0, .packet 2, .packet 3, .packet 4, .packet 5])).toOption.map
    (fun t => (t.dec.data.length, genServer 8 0 t.dec.data, t.dec.det.nbDecoded)) = some (5, (5, none), 1) := by
  revert dbg; decide +kernel

example (dbg : Bool) : ∃ t, OneReach (cfg8 dbg) false t ∧ t.sent = genClient 8 5 :=
  oneRun_exists (l := genClient 8 5) (by revert dbg; decide +kernel)

end Netcode
