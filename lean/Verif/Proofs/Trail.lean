import Verif.Spec.Trail
import Verif.Proofs.Notify
import Verif.Proofs.DecMode
import Verif.Proofs.DecLow

/-!
# Bytes after the end of a packet

A decoder whose packets are followed by other bytes keeps longer buffers for the repairs, and is otherwise the same.
-/

set_option linter.unusedSectionVars false

namespace Netcode

open OMap

variable {w : Nat}

/-! ## Readers -/

/-- A reader that reads the same thing in a longer packet. -/
structure ExtReader {α : Type} (R : Reader α) : Prop where
  ext : ∀ {p c a c'} (j : List Byte), R p c = .ok (a, c') →
    R (p ++ j) ⟨c.pos, c.maxLen + j.length⟩ = .ok (a, ⟨c'.pos, c'.maxLen + j.length⟩)

theorem extInt (k : Nat) : ExtReader (fun p c => readInt p k c) := by
  constructor
  intro p c a c' j h
  unfold readInt at *
  simp only at h ⊢
  split at h
  · cases h
  · split at h
    · cases h
    · cases h
      simp only
      rw [if_neg (by omega), if_neg (by rw [List.length_append]; omega)]
      congr 2
      · congr 1
        rw [List.drop_append, List.take_append, List.length_drop, show k - (p.length - c.pos) = 0 by omega]
        simp
      · congr 1; omega

theorem extSkip (k : Nat) : ExtReader (fun _ c => (skip k c).map (fun c => ((), c))) := by
  constructor
  intro p c a c' j h
  unfold skip at *
  simp only at h ⊢
  split at h
  · cases h
  · simp only [Except.map, Except.ok.injEq, Prod.mk.injEq] at h
    obtain ⟨_, rfl⟩ := h
    rw [if_neg (by omega)]
    simp only [Except.map]
    congr 3
    omega

theorem extPure {α : Type} (a : α) : ExtReader (fun _ c => .ok (a, c)) := by
  constructor; intro p c a' c' j h; cases h; rfl

theorem extBind {α β : Type} {R : Reader α} {f : α → Reader β} (hR : ExtReader R) (hf : ∀ a, ExtReader (f a)) :
    ExtReader (rbind R f) := by
  constructor
  intro p c a c' j h
  unfold rbind at *
  cases hr : R p c with
  | error e => simp [hr] at h
  | ok x =>
    obtain ⟨b, c1⟩ := x
    simp only [hr] at h
    rw [hR.ext j hr]
    exact (hf b).ext j h

theorem extPairs (n : Nat) : ExtReader (fun p c => readPairs p n c) := by
  induction n with
  | zero => exact extPure []
  | succ n ih =>
    rw [readPairs_eq]
    exact extBind (extInt 1) fun _ => extBind (extInt 2) fun _ => extBind ih fun _ => extPure _

theorem extIds : ExtReader readIds := by
  rw [readIds_eq]
  refine extBind (extInt 2) fun nb => ?_
  split
  · exact extPure _
  · exact extBind (extInt 4) fun _ => extBind (extPairs _) fun _ => extPure _

theorem extAck : ExtReader ackReader :=
  extBind (extInt 1) fun _ => extBind (extInt 2) fun _ => extBind extIds fun _ => extPure _

theorem extHead : ExtReader headReader :=
  extBind (extInt 1) fun _ => extBind (extInt 4) fun _ => extBind (extInt 2) fun _ =>
    extBind (extSkip _) fun _ => extPure _

theorem extRepair : ExtReader repairReader :=
  extBind extHead fun _ => extBind extIds fun _ => extBind (extInt 2) fun _ => extPure _

theorem whole_append (p j : List Byte) : whole (p ++ j) = ⟨(whole p).pos, (whole p).maxLen + j.length⟩ := by
  simp [whole]

theorem readAck_ext {p : List Byte} {a : Ack} {n : Nat} (h : readAck p = .ok (a, n)) (j : List Byte) :
    readAck (p ++ j) = .ok (a, n) := by
  rw [readAck_eq] at h ⊢
  obtain ⟨⟨x, c⟩, h1, h2⟩ := map_ok_inv h
  cases h2
  rw [whole_append, extAck.ext j h1]; rfl

theorem readSource_ext {p : List Byte} {a : DSource} {n : Nat} (h : readSource p = .ok (a, n)) (j : List Byte) :
    readSource (p ++ j) = .ok (a, n) := by
  have hle : n ≤ p.length := by
    rcases readSource_total p with ⟨a', n', h1, h2⟩ | h1
    · rw [h] at h1; cases h1; exact h2
    · rw [h] at h1; cases h1
  rw [readSource_eq] at h ⊢
  obtain ⟨⟨⟨id, sz⟩, c⟩, h1, h2⟩ := map_ok_inv h
  cases h2
  rw [whole_append, extHead.ext j h1]
  have hc := head_inv h1
  simp only [Except.map]
  congr 3
  rw [List.drop_append, List.take_append, List.length_drop]
  simp only at hle
  rw [show sz - (p.length - headerSize) = 0 by unfold headerSize; omega]
  simp

/-- The same repair in a longer packet. -/
structure RLong (r r' : DRepair) : Prop where
  id : r'.id = r.id
  ids : r'.ids = r.ids
  enc : r'.encSize = r.encSize
  sym : r'.symSize = r.symSize
  buf : ∃ j, r'.buf = r.buf ++ j

theorem readRepair_ext {p : List Byte} {r : DRepair} {n : Nat} (h : readRepair p = .ok (r, n)) (j : List Byte) :
    ∃ r', readRepair (p ++ j) = .ok (r', n) ∧ RLong r r' := by
  have hle : headerSize ≤ p.length := by
    rw [readRepair_eq] at h
    obtain ⟨⟨x, c⟩, h1, h2⟩ := map_ok_inv h
    have := (goodRepair.safe (safe_whole p) h1).1
    unfold Safe at this
    unfold repairReader at h1
    obtain ⟨⟨id, sz⟩, c1, k1, k2⟩ := rbind_inv h1
    have := (goodHead.safe (safe_whole p) k1).1
    unfold Safe at this
    have := head_inv k1
    unfold headerSize; omega
  rw [readRepair_eq] at h ⊢
  obtain ⟨⟨x, c⟩, h1, h2⟩ := map_ok_inv h
  cases h2
  rw [whole_append, extRepair.ext j h1]
  refine ⟨_, rfl, rfl, rfl, rfl, rfl, j, ?_⟩
  simp only
  rw [List.drop_append, show headerSize - p.length = 0 by omega]
  rfl

/-! ## Regions -/

theorem gfMultiply_ext {gf : GF w} {b : List Byte} {n : Nat} {k : BitVec w} {x : List Byte} (h : gfMultiply gf b n k = .ok x)
    (j : List Byte) : gfMultiply gf (b ++ j) n k = .ok x := by
  unfold gfMultiply ensure at *
  by_cases h1 : n ≤ b.length
  · have h2 : n ≤ (b ++ j).length := by rw [List.length_append]; omega
    simp only [h1, h2, decide_true, if_true] at h ⊢
    rw [List.take_append_of_le_length h1]
    exact h
  · simp only [h1, decide_false, Bool.false_eq_true, if_false] at h
    cases h

theorem xorPrefix_append (b x j : List Byte) (h : x.length ≤ b.length) : xorPrefix (b ++ j) x = xorPrefix b x ++ j := by
  induction b generalizing x with
  | nil =>
    cases x with
    | nil => cases j <;> rfl
    | cons _ _ => simp at h
  | cons a t ih =>
    cases x with
    | nil => rfl
    | cons y u =>
      simp only [List.cons_append, xorPrefix]
      rw [ih u (by simpa using h)]

theorem leBytes_len (n x : Nat) : (leBytes n x).length = n := by
  induction n generalizing x with
  | zero => rfl
  | succ n ih => simp [leBytes, ih]

theorem gfMultiplyAdd_extDst {gf : GF w} {src b : List Byte} {n : Nat} {k : BitVec w} {x : List Byte}
    (h : gfMultiplyAdd gf src b n k = .ok x) (j : List Byte) : gfMultiplyAdd gf src (b ++ j) n k = .ok (x ++ j) := by
  unfold gfMultiplyAdd ensure at *
  by_cases h1 : n ≤ src.length
  · by_cases h2 : n ≤ b.length
    · have h3 : n ≤ (b ++ j).length := by rw [List.length_append]; omega
      simp only [h1, h2, h3, decide_true, if_true] at h ⊢
      by_cases h4 : (8 * n % w == 0) = true
      · simp only [h4, if_true] at h ⊢
        cases h
        simp only [bind, Except.bind, pure, Except.pure]
        rw [xorPrefix_append]
        unfold mulRegion
        rw [leBytes_len, List.length_take]; omega
      · simp only [h4] at h
        cases h
    · simp only [h1, h2, decide_true, decide_false, Bool.false_eq_true, if_true, if_false] at h
      cases h
  · simp only [h1, decide_false, Bool.false_eq_true, if_false] at h
    cases h

theorem gfMultiplyAdd_extSrc {gf : GF w} {src b : List Byte} {n : Nat} {k : BitVec w} {x : List Byte}
    (h : gfMultiplyAdd gf src b n k = .ok x) (j : List Byte) : gfMultiplyAdd gf (src ++ j) b n k = .ok x := by
  unfold gfMultiplyAdd ensure at *
  by_cases h1 : n ≤ src.length
  · have h2 : n ≤ (src ++ j).length := by rw [List.length_append]; omega
    simp only [h1, h2, decide_true, if_true] at h ⊢
    rw [List.take_append_of_le_length h1]
    exact h
  · simp only [h1, decide_false, Bool.false_eq_true, if_false] at h
    cases h

/-! ## Repairs -/

theorem createSource_ext {gf : GF w} {dbg : Bool} {r r' : DRepair} (hr : RLong r r') {src : DSource}
    (h : createSource gf dbg r = .ok src) : createSource gf dbg r' = .ok src := by
  unfold createSource at *
  rw [hr.ids, hr.id, hr.enc]
  obtain ⟨j, hj⟩ := hr.buf
  simp only [bind_ok_iff] at h ⊢
  obtain ⟨_, h1, h⟩ := h
  refine ⟨(), h1, ?_⟩
  split at h
  · cases h
  · simp only [bind_ok_iff] at h ⊢
    obtain ⟨sym, h2, h⟩ := h
    exact ⟨sym, by rw [hj]; exact gfMultiply_ext h2 j, h⟩

theorem removeData_ext {gf : GF w} {dbg : Bool} {src : DSource} {r r' : DRepair} (hr : RLong r r') {x : DRepair}
    (h : removeData gf dbg src r = .ok x) : ∃ x', removeData gf dbg src r' = .ok x' ∧ RLong x x' := by
  unfold removeData at *
  rw [hr.ids, hr.sym, hr.id, hr.enc]
  obtain ⟨j, hj⟩ := hr.buf
  simp only [bind_ok_iff] at h ⊢
  obtain ⟨_, h1, _, h2, b, h3, h⟩ := h
  cases h
  refine ⟨_, ⟨(), h1, (), h2, b ++ j, by rw [hj]; exact gfMultiplyAdd_extDst h3 j, rfl⟩, ?_⟩
  exact ⟨rfl, rfl, rfl, rfl, j, rfl⟩

theorem removeFromRepair_ext {gf : GF w} {dbg : Bool} {src : DSource} {r r' : DRepair} (hr : RLong r r') {x : DRepair}
    (h : removeFromRepair gf dbg src r = .ok x) : ∃ x', removeFromRepair gf dbg src r' = .ok x' ∧ RLong x x' := by
  unfold removeFromRepair at *
  simp only [bind_ok_iff] at h ⊢
  obtain ⟨y, h1, _, h2, _, h3, h⟩ := h
  cases h
  obtain ⟨y', k1, k2⟩ := removeData_ext hr h1
  refine ⟨_, ⟨y', k1, (), by rw [k2.ids]; exact h2, (), by rw [k2.ids]; exact h3, rfl⟩, ?_⟩
  exact ⟨k2.id, by simp only [k2.ids], k2.enc, k2.sym, k2.buf⟩

/-- The same repairs in longer packets. -/
def Longer (m m' : OMap DRepair) : Prop := List.Forall₂ (fun p q => q.1 = p.1 ∧ RLong p.2 q.2) m m'

section
variable {m m' : OMap DRepair}

theorem Longer.nil : Longer [] [] := List.Forall₂.nil

theorem Longer.length (h : Longer m m') : m'.length = m.length := (List.Forall₂.length_eq h).symm

theorem Longer.isEmpty (h : Longer m m') : m'.isEmpty = m.isEmpty := by
  cases h <;> rfl

theorem Longer.has (h : Longer m m') (k : Nat) : m'.has k = m.has k := by
  unfold Longer at h
  induction h with
  | nil => rfl
  | cons h1 _ ih =>
    unfold OMap.has at *
    simp only [List.any_cons, ih, h1.1]

theorem Longer.get? (h : Longer m m') {k : Nat} {r : DRepair} (hr : m.get? k = some r) :
    ∃ r', m'.get? k = some r' ∧ RLong r r' := by
  unfold Longer at h
  induction h with
  | nil => cases hr
  | @cons a b l l' h1 _ ih =>
    unfold OMap.get? at *
    rw [List.find?_cons] at hr ⊢
    rw [h1.1]
    by_cases hk : (a.1 == k) = true
    · simp only [hk] at hr ⊢
      cases hr
      exact ⟨_, rfl, h1.2⟩
    · simp only [hk] at hr ⊢
      exact ih hr

theorem Longer.getElem? (h : Longer m m') {i : Nat} {k : Nat} {r : DRepair} (hr : m[i]? = some (k, r)) :
    ∃ r', m'[i]? = some (k, r') ∧ RLong r r' := by
  unfold Longer at h
  induction h generalizing i with
  | nil => simp at hr
  | @cons a b l l' h1 _ ih =>
    cases i with
    | zero =>
      simp only [List.getElem?_cons_zero, Option.some.injEq] at hr ⊢
      subst hr
      obtain ⟨b1, b2⟩ := b
      exact ⟨b2, by rw [show b1 = k from h1.1], h1.2⟩
    | succ i =>
      simp only [List.getElem?_cons_succ] at hr ⊢
      exact ih hr

theorem Longer.erase (h : Longer m m') (k : Nat) : Longer (m.erase k) (m'.erase k) := by
  unfold Longer at *
  induction h with
  | nil => exact .nil
  | @cons a b l l' h1 _ ih =>
    unfold OMap.erase at *
    rw [List.filter_cons, List.filter_cons, h1.1]
    split
    · exact .cons h1 ih
    · exact ih

theorem Longer.modify (h : Longer m m') (k : Nat) {r r' : DRepair} (hr : RLong r r') :
    Longer (m.modify k (fun _ => r)) (m'.modify k (fun _ => r')) := by
  unfold Longer at *
  induction h with
  | nil => exact .nil
  | @cons a b l l' h1 _ ih =>
    unfold OMap.modify at *
    rw [List.map_cons, List.map_cons]
    refine .cons ?_ ih
    rw [h1.1]
    split
    · exact ⟨rfl, hr⟩
    · exact h1

theorem Longer.emplace (h : Longer m m') (k : Nat) {r r' : DRepair} (hr : RLong r r') :
    Longer (m.emplace k r) (m'.emplace k r') := by
  unfold Longer at *
  induction h with
  | nil => exact .cons ⟨rfl, hr⟩ .nil
  | @cons a b l l' h1 h2 ih =>
    unfold OMap.emplace
    rw [h1.1]
    split
    · exact .cons ⟨rfl, hr⟩ (.cons h1 h2)
    · split
      · exact .cons h1 h2
      · exact .cons h1 ih

end

/-- The identifiers of repairs and the sources they list. -/
def keyIds (m : OMap DRepair) : List (Nat × List Nat) := m.map (fun q => (q.1, q.2.ids))

theorem Longer.keyIds {m m' : OMap DRepair} (h : Longer m m') : keyIds m' = keyIds m := by
  unfold Longer at h
  unfold Netcode.keyIds
  induction h with
  | nil => rfl
  | cons h1 _ ih => rw [List.map_cons, List.map_cons, ih, h1.1, h1.2.ids]

/-- A clash is about identifiers only. -/
theorem noClash_congr {gf : GF w} {d d' : Dec} {x : Nat} (h1 : keyIds d'.repairs = keyIds d.repairs) (h2 : d'.missing = d.missing) :
    d'.NoClash gf x ↔ d.NoClash gf x := by
  have key : ∀ e : Dec, e.NoClash gf x ↔
      ((∀ q ∈ keyIds e.repairs, ∀ q' ∈ keyIds e.repairs, x ∈ q.2 → x ∈ q'.2 → q.2.length = 2 → q'.1 = q.1) ∨
        (e.missing.length = (keyIds e.repairs).length + 1 ∧
          Independent gf (keyIds e.repairs) (e.missing.keys.filter (fun y => decide (y ≠ x))))) := by
    intro e
    unfold Dec.NoClash Netcode.keyIds
    refine or_congr ?_ (by rw [List.length_map])
    constructor
    · intro h q hq q' hq' a1 a2 a3
      obtain ⟨p, hp, rfl⟩ := List.mem_map.1 hq
      obtain ⟨p', hp', rfl⟩ := List.mem_map.1 hq'
      exact h p hp p' hp' a1 a2 a3
    · intro h q hq q' hq' a1 a2 a3
      exact h _ (List.mem_map_of_mem hq) _ (List.mem_map_of_mem hq') a1 a2 a3
  rw [key d', key d, h1, h2]


/-! ## Functions that do not look at the repairs -/

/-- The decoder with other repairs. -/
def Dec.withR (s : Dec) (R : OMap DRepair) : Dec := { s with repairs := R }

section
variable {dbg : Bool} {s s' : Dec} {R : OMap DRepair}

theorem callbackOrdered_R {id : Nat} (h : s.callbackOrdered id = .ok s') :
    (s.withR R).callbackOrdered id = .ok (s'.withR R) := by
  unfold Dec.callbackOrdered at *
  rw [show (s.withR R).sources = s.sources from rfl]
  split at h
  · cases h
  · cases h; rfl

theorem flushLoop_R (l : List Nat) (h : flushLoop dbg l s = .ok s') : flushLoop dbg l (s.withR R) = .ok (s'.withR R) := by
  induction l generalizing s with
  | nil => cases h; rfl
  | cons id rest ih =>
    unfold flushLoop at h ⊢
    simp only [bind_ok_iff] at h ⊢
    obtain ⟨_, h0, s1, h1, h⟩ := h
    refine ⟨(), h0, s1.withR R, callbackOrdered_R h1, ?_⟩
    cases rest with
    | nil => cases h; rfl
    | cons nxt t =>
      simp only at h ⊢
      split at h
      · rename_i hc
        cases h
        rw [if_pos (by exact hc)]; rfl
      · rename_i hc
        rw [if_neg (by exact hc)]
        exact ih h

theorem flush_R (h : s.flush dbg = .ok s') : (s.withR R).flush dbg = .ok (s'.withR R) := by
  unfold Dec.flush at *
  rw [show (s.withR R).firstMissing = s.firstMissing from rfl, show (s.withR R).ordered = s.ordered from rfl]
  split at h
  · rename_i hc; rw [if_pos hc]; exact flushLoop_R _ h
  · rename_i hc; rw [if_neg hc]; cases h; rfl

theorem giveNew_R {src : DSource} (h : s.giveNew dbg src = .ok s') : (s.withR R).giveNew dbg src = .ok (s'.withR R) := by
  unfold Dec.giveNew at *
  rw [show (s.withR R).firstMissing = s.firstMissing from rfl, show (s.withR R).inOrder = s.inOrder from rfl]
  split at h
  · rename_i hc; rw [if_pos hc]; cases h; rfl
  · rename_i hc; rw [if_neg hc]
    split at h
    · rename_i hc; rw [if_pos hc]; exact flush_R h
    · rename_i hc; rw [if_neg hc]; cases h; rfl

theorem addSourceTail_R {src : DSource} (h : addSourceTail dbg src s = .ok s') :
    addSourceTail dbg src (s.withR R) = .ok (s'.withR R) := by
  unfold addSourceTail at *
  simp only [bind_ok_iff] at h ⊢
  obtain ⟨_, h1, h⟩ := h
  refine ⟨(), h1, ?_⟩
  split at h
  · rename_i hc; cases h; exact (if_pos hc).trans rfl
  · rename_i hc; cases h; exact (if_neg hc).trans rfl

theorem giveOutdated_R (l : List Nat) (h : giveOutdated l s = .ok s') : giveOutdated l (s.withR R) = .ok (s'.withR R) := by
  induction l generalizing s with
  | nil => cases h; rfl
  | cons k t ih =>
    unfold giveOutdated at h ⊢
    simp only [bind_ok_iff] at h ⊢
    obtain ⟨s1, h1, h⟩ := h
    exact ⟨_, callbackOrdered_R h1, ih h⟩

theorem giveAllOutdated_R {id : Nat} (h : s.giveAllOutdated dbg id = .ok s') :
    (s.withR R).giveAllOutdated dbg id = .ok (s'.withR R) := by
  unfold Dec.giveAllOutdated at *
  rw [show (s.withR R).inOrder = s.inOrder from rfl, show (s.withR R).ordered = s.ordered from rfl]
  split at h
  · rename_i hc
    rw [if_pos hc]
    simp only [bind_ok_iff] at h ⊢
    obtain ⟨s1, h1, h⟩ := h
    exact ⟨_, giveOutdated_R _ h1, flush_R h⟩
  · rename_i hc; rw [if_neg hc]; cases h; rfl

theorem giveDecoded_R {src : DSource} (h : s.giveDecoded dbg src = .ok s') :
    (s.withR R).giveDecoded dbg src = .ok (s'.withR R) := by
  unfold Dec.giveDecoded at *
  rw [show (s.withR R).firstMissing = s.firstMissing from rfl, show (s.withR R).inOrder = s.inOrder from rfl]
  split at h
  · rename_i hc; rw [if_pos hc]; cases h; rfl
  · rename_i hc; rw [if_neg hc]
    split at h
    · rename_i hc; rw [if_pos hc]; exact flush_R h
    · rename_i hc; rw [if_neg hc]; cases h; rfl

theorem insertDecoded_R {src : DSource} (h : s.insertDecoded dbg src = .ok s') :
    (s.withR R).insertDecoded dbg src = .ok (s'.withR R) := by
  unfold Dec.insertDecoded at *
  simp only [bind_ok_iff] at h ⊢
  obtain ⟨_, h1, h⟩ := h
  refine ⟨(), h1, ?_⟩
  rw [show (s.withR R).sources = s.sources from rfl]
  split at h
  · cases h
  · exact giveDecoded_R (R := R) h

end

/-! ## Functions that do -/

/-- The same decoder with longer packets. -/
def Tail (s t : Dec) : Prop := ∃ R, t = s.withR R ∧ Longer s.repairs R

section
variable {gf : GF w} {dbg : Bool} {s s' t : Dec}

theorem removeFromAll_tail {src : DSource} (l : List Nat) {R : OMap DRepair} (hl : Longer s.repairs R)
    (h : removeFromAll gf dbg src l s = .ok s') :
    ∃ R', removeFromAll gf dbg src l (s.withR R) = .ok (s'.withR R') ∧ Longer s'.repairs R' := by
  induction l generalizing s R with
  | nil => cases h; exact ⟨R, rfl, hl⟩
  | cons rid rest ih =>
    unfold removeFromAll at h ⊢
    rw [show (s.withR R).repairs = R from rfl]
    split at h
    · cases h
    · rename_i r hr
      simp only [bind_ok_iff] at h
      obtain ⟨x, h1, h⟩ := h
      obtain ⟨r', k1, k2⟩ := hl.get? hr
      obtain ⟨x', k3, k4⟩ := removeFromRepair_ext k2 h1
      rw [k1]
      obtain ⟨R', k5, k6⟩ := ih (s := { s with repairs := s.repairs.modify rid (fun _ => x) })
        (R := R.modify rid (fun _ => x')) (hl.modify rid k4) h
      exact ⟨R', bind_ok_iff.2 ⟨x', k3, k5⟩, k6⟩

theorem addSourceHead_tail {src : DSource} {R : OMap DRepair} (hl : Longer s.repairs R)
    (h : addSourceHead gf dbg src s = .ok s') :
    ∃ R', addSourceHead gf dbg src (s.withR R) = .ok (s'.withR R') ∧ Longer s'.repairs R' := by
  unfold addSourceHead at h ⊢
  simp only [bind_ok_iff] at h ⊢
  obtain ⟨s1, h1, h⟩ := h
  have hs1 : s1.repairs = s.repairs := (giveNew_C h1).repairs
  rw [← hs1] at hl
  split at h
  · rename_i hm
    refine ⟨R, ⟨s1.withR R, giveNew_R h1, ?_⟩, ?_⟩
    · rw [show (s1.withR R).missing = s1.missing from rfl, hm]
      cases h; rfl
    · cases h; exact hl
  · rename_i links hm
    simp only [bind_ok_iff] at h
    obtain ⟨s2, h2, h⟩ := h
    cases h
    obtain ⟨R', k1, k2⟩ := removeFromAll_tail links hl h2
    refine ⟨R', ⟨s1.withR R, giveNew_R h1, ?_⟩, k2⟩
    rw [show (s1.withR R).missing = s1.missing from rfl, hm]
    exact bind_ok_iff.2 ⟨_, k1, rfl⟩

theorem addSourceTail_repairs {src : DSource} (h : addSourceTail dbg src s = .ok s') : s'.repairs = s.repairs := by
  unfold addSourceTail at h
  simp only [bind_ok_iff] at h
  obtain ⟨_, h1, h⟩ := h
  split at h <;> (cases h; rfl)

theorem add_scan_tail (gf : GF w) (dbg : Bool) (fuel : Nat) :
    (∀ src s s' R, Longer s.repairs R → addSource gf dbg fuel src s = .ok s' →
      ∃ R', addSource gf dbg fuel src (s.withR R) = .ok (s'.withR R') ∧ Longer s'.repairs R') ∧
    (∀ k s s' R, Longer s.repairs R → scanMissing gf dbg fuel k s = .ok s' →
      ∃ R', scanMissing gf dbg fuel k (s.withR R) = .ok (s'.withR R') ∧ Longer s'.repairs R') := by
  induction fuel with
  | zero =>
    constructor
    · intro src s s' R hl h; unfold addSource at h; cases h
    · intro k s s' R hl h
      cases k with
      | none => unfold scanMissing at h ⊢; cases h; exact ⟨R, rfl, hl⟩
      | some k => unfold scanMissing at h; cases h
  | succ fuel ih =>
    constructor
    · intro src s s' R hl h
      unfold addSource at h ⊢
      simp only [bind_ok_iff] at h ⊢
      obtain ⟨s1, h1, s2, h2, h⟩ := h
      obtain ⟨R1, g1, l1⟩ := addSourceHead_tail hl h1
      obtain ⟨R2, g2, l2⟩ := ih.2 _ _ _ _ l1 h2
      exact ⟨R2, ⟨_, g1, _, g2, addSourceTail_R h⟩, by rw [addSourceTail_repairs h]; exact l2⟩
    · intro k s s' R hl h
      cases k with
      | none => unfold scanMissing at h ⊢; cases h; exact ⟨R, rfl, hl⟩
      | some k =>
        rw [scanMissing] at h ⊢
        rw [show (s.withR R).missing = s.missing from rfl, show (s.withR R).repairs = R from rfl,
          show (s.withR R).lastId = s.lastId from rfl, show (s.withR R).sources = s.sources from rfl]
        split at h
        · cases h
        · rename_i rid hm
          split at h
          · cases h
          · rename_i r hr
            obtain ⟨r', k1, k2⟩ := hl.get? hr
            rw [k1]
            simp only
            rw [k2.ids]
            split at h
            · rename_i hlen
              rw [if_pos hlen]
              simp only [bind_ok_iff] at h ⊢
              obtain ⟨_, a1, _, a2, src, a3, s1, h1, h⟩ := h
              obtain ⟨R1, g1, l1⟩ := ih.1 _ _ _ (R.erase rid) (hl.erase rid) h1
              obtain ⟨R2, g2, l2⟩ := ih.2 _ _ _ _ l1 h
              exact ⟨R2, ⟨(), a1, (), a2, src, createSource_ext k2 a3, _, g1, g2⟩, l2⟩
            · rename_i hlen
              rw [if_neg hlen]
              exact ih.2 _ _ _ _ hl h
        · exact ih.2 _ _ _ _ hl h

theorem Longer.alive {R R' : OMap DRepair} (hl : Longer R R') (m : OMap (List Nat)) (ids : List Nat) :
    linksAlive R' m ids = linksAlive R m ids := by
  unfold linksAlive
  rw [show R'.has = R.has from funext hl.has]

theorem dropRepairs_tail (id : Nat) (l l' : OMap DRepair) (hll : Longer l l') {R : OMap DRepair} (hl : Longer s.repairs R)
    (h : dropRepairs dbg id l s = .ok s') :
    ∃ R', dropRepairs dbg id l' (s.withR R) = .ok (s'.withR R') ∧ Longer s'.repairs R' := by
  unfold Longer at hll
  induction hll generalizing s R with
  | nil => cases h; exact ⟨R, rfl, hl⟩
  | @cons p q rest rest' hp _ ih =>
    obtain ⟨rid, r⟩ := p
    obtain ⟨rid', r'⟩ := q
    obtain ⟨rfl, hr⟩ : rid' = rid ∧ RLong r r' := hp
    unfold dropRepairs at h ⊢
    rw [hr.ids]
    simp only [bind_ok_iff] at h ⊢
    obtain ⟨_, a1, h⟩ := h
    split at h
    · cases h
    · rename_i x xs hx
      split at h
      · rename_i hc
        simp only [bind_ok_iff] at h
        obtain ⟨_, a0, mm, a2, h⟩ := h
        obtain ⟨R', g1, g2⟩ := ih (s := { s with missing := mm, repairs := s.repairs.erase rid' }) (hl.erase rid') h
        refine ⟨R', ⟨(), a1, ?_⟩, g2⟩
        rw [hx] at a0 a2 ⊢
        rw [if_pos hc]
        refine bind_ok_iff.2 ⟨(), ?_, bind_ok_iff.2 ⟨mm, a2, g1⟩⟩
        rw [← a0]
        exact congrArg (fun b => ensure b .dangling) (hl.alive _ _)
      · rename_i hc
        obtain ⟨R', g1, g2⟩ := ih hl h
        refine ⟨R', ⟨(), a1, ?_⟩, g2⟩
        rw [hx, if_neg hc]
        exact g1

theorem dropOutdated_tail {id : Nat} {R : OMap DRepair} (hl : Longer s.repairs R) (h : s.dropOutdated dbg id = .ok s') :
    ∃ R', (s.withR R).dropOutdated dbg id = .ok (s'.withR R') ∧ Longer s'.repairs R' := by
  unfold Dec.dropOutdated at h ⊢
  simp only [bind_ok_iff] at h ⊢
  obtain ⟨s1, h1, s2, h2, h⟩ := h
  cases h
  obtain ⟨R1, g1, l1⟩ := dropRepairs_tail (s := { s with lastId := some id }) id s.repairs R hl hl h1
  refine ⟨R1, ⟨_, g1, _, giveAllOutdated_R h2, rfl⟩, ?_⟩
  rw [← (giveAllOutdated_C h2).repairs] at l1
  exact l1

theorem coeffMatrix_tail {R R' : OMap DRepair} (hl : Longer R R') (m : OMap (List Nat)) :
    coeffMatrix w R' m = coeffMatrix w R m := by
  funext q r
  unfold coeffMatrix
  cases hq : R[q]? with
  | none =>
    have : R'[q]? = none := by
      rw [List.getElem?_eq_none_iff] at hq ⊢
      rw [hl.length]; exact hq
    rw [this]
  | some p =>
    obtain ⟨rid, rep⟩ := p
    obtain ⟨r', k1, k2⟩ := hl.getElem? hq
    rw [k1]
    cases m[r]? with
    | none => rfl
    | some y => simp only [k2.ids]

theorem decodeSym_tail {inv : Mat w} {col srcSz : Nat} {l l' : List (DRepair × Nat)}
    (hl : List.Forall₂ (fun p q => q.2 = p.2 ∧ RLong p.1 q.1) l l') {b : Bool} {sym x : List Byte}
    (h : decodeSym gf inv col srcSz l b sym = .ok x) : decodeSym gf inv col srcSz l' b sym = .ok x := by
  induction hl generalizing b sym with
  | nil => exact h
  | @cons p q rest rest' hp _ ih =>
    obtain ⟨r, row⟩ := p
    obtain ⟨r', row'⟩ := q
    obtain ⟨rfl, hr⟩ : row' = row ∧ RLong r r' := hp
    obtain ⟨j, hj⟩ := hr.buf
    unfold decodeSym at h ⊢
    rw [hr.sym, hj]
    split at h
    · rename_i hc; rw [if_pos hc]; exact ih h
    · rename_i hc; rw [if_neg hc]
      simp only at h ⊢
      split at h
      · rename_i hb
        rw [if_pos hb]
        simp only [bind_ok_iff] at h ⊢
        obtain ⟨p, h1, h⟩ := h
        exact ⟨p, gfMultiply_ext h1 j, ih h⟩
      · rename_i hb
        rw [if_neg hb]
        simp only [bind_ok_iff] at h ⊢
        obtain ⟨p, h1, h⟩ := h
        exact ⟨p, gfMultiplyAdd_extSrc h1 j, ih h⟩

theorem zipIdx_tail {l l' : List DRepair} (hl : List.Forall₂ RLong l l') (n : Nat) :
    List.Forall₂ (fun p q => q.2 = p.2 ∧ RLong p.1 q.1) (l.zipIdx n) (l'.zipIdx n) := by
  induction hl generalizing n with
  | nil => exact .nil
  | cons h _ ih => exact .cons ⟨rfl, h⟩ (ih (n + 1))

theorem decodeSize_tail {inv : Mat w} {col : Nat} {l l' : List DRepair} (hl : List.Forall₂ RLong l l') :
    decodeSize gf inv col l' = decodeSize gf inv col l := by
  unfold decodeSize
  have h := zipIdx_tail hl 0
  generalize l.zipIdx 0 = a at h ⊢
  generalize l'.zipIdx 0 = b at h ⊢
  generalize (0 : BitVec 16) = z
  induction h generalizing z with
  | nil => rfl
  | @cons p q rest rest' hp _ ih =>
    obtain ⟨r, row⟩ := p
    obtain ⟨r', row'⟩ := q
    obtain ⟨rfl, hr⟩ : row' = row ∧ RLong r r' := hp
    simp only [List.foldl_cons, hr.enc]
    exact ih _

theorem decodeOne_tail {inv : Mat w} {col : Nat} {l l' : List DRepair} (hl : List.Forall₂ RLong l l') {x : List Byte}
    (h : decodeOne gf dbg inv l col = .ok x) : decodeOne gf dbg inv l' col = .ok x := by
  unfold decodeOne at h ⊢
  rw [decodeSize_tail hl, ← List.Forall₂.length_eq hl]
  simp only [bind_ok_iff] at h ⊢
  obtain ⟨_, h1, _, h2, h⟩ := h
  exact ⟨(), h1, (), h2, decodeSym_tail (zipIdx_tail hl 0) h⟩

theorem decodeLoop_tail {inv : Mat w} {l l' : List DRepair} (hl : List.Forall₂ RLong l l') (xs : List Nat) {col : Nat}
    {R : OMap DRepair} (h : decodeLoop gf dbg inv l col xs s = .ok s') :
    decodeLoop gf dbg inv l' col xs (s.withR R) = .ok (s'.withR R) := by
  induction xs generalizing s col with
  | nil => unfold decodeLoop at h ⊢; cases h; rfl
  | cons x t ih =>
    unfold decodeLoop at h ⊢
    simp only [bind_ok_iff] at h ⊢
    obtain ⟨sym, h1, s1, h2, h⟩ := h
    exact ⟨sym, decodeOne_tail hl h1, _, insertDecoded_R h2, ih h⟩

theorem Longer.values {R R' : OMap DRepair} (hl : Longer R R') : List.Forall₂ RLong (R.map (·.2)) (R'.map (·.2)) := by
  unfold Longer at hl
  induction hl with
  | nil => exact .nil
  | cons h _ ih => exact .cons h.2 ih

theorem fullDecode_tail {R : OMap DRepair} (hl : Longer s.repairs R) (h : s.fullDecode gf dbg = .ok s') :
    ∃ R', (s.withR R).fullDecode gf dbg = .ok (s'.withR R') ∧ Longer s'.repairs R' := by
  unfold Dec.fullDecode at h ⊢
  rw [show (s.withR R).missing = s.missing from rfl, show (s.withR R).repairs = R from rfl, hl.isEmpty, hl.length,
    coeffMatrix_tail hl]
  split at h
  · rename_i hc; rw [if_pos hc]; cases h; exact ⟨R, rfl, hl⟩
  rename_i hc; rw [if_neg hc]
  split at h
  · rename_i hc; rw [if_pos hc]; cases h; exact ⟨R, rfl, hl⟩
  rename_i hc; rw [if_neg hc]
  simp only [bind_ok_iff] at h ⊢
  obtain ⟨_, a1, _, a2, _, a3, h⟩ := h
  split at h
  · rename_i c hinv
    split at h
    · cases h
    · rename_i rid r hr
      simp only [bind_ok_iff] at h
      obtain ⟨_, a4, h⟩ := h
      cases h
      obtain ⟨r', k1, k2⟩ := hl.getElem? hr
      refine ⟨R.erase rid, ⟨(), a1, (), a2, (), a3, ?_⟩, hl.erase rid⟩
      simp only [k1, k2.ids, hl.alive, a4]
      rfl
  · rename_i inv hinv
    simp only [bind_ok_iff] at h
    obtain ⟨s1, h1, h⟩ := h
    cases h
    refine ⟨[], ⟨(), a1, (), a2, (), a3, ?_⟩, .nil⟩
    exact bind_ok_iff.2 ⟨_, decodeLoop_tail hl.values _ (R := R) h1, rfl⟩

theorem Longer.fuel {R : OMap DRepair} (hl : Longer s.repairs R) : (s.withR R).fuel = s.fuel := by
  unfold Dec.fuel
  rw [show (s.withR R).repairs = R from rfl, hl.length]; rfl

theorem onSource_tail {src : DSource} {R : OMap DRepair} (hl : Longer s.repairs R) (h : s.onSource gf dbg src = .ok s') :
    ∃ R', (s.withR R).onSource gf dbg src = .ok (s'.withR R') ∧ Longer s'.repairs R' := by
  unfold Dec.onSource at h ⊢
  rw [show (s.withR R).lastId = s.lastId from rfl, show (s.withR R).sources = s.sources from rfl]
  split at h
  · rename_i hc; rw [if_pos hc]; cases h; exact ⟨R, rfl, hl⟩
  rename_i hc; rw [if_neg hc]
  split at h
  · rename_i hc; rw [if_pos hc]; cases h; exact ⟨R, rfl, hl⟩
  rename_i hc; rw [if_neg hc, hl.fuel]
  simp only [bind_ok_iff] at h ⊢
  obtain ⟨s1, h1, h⟩ := h
  obtain ⟨R1, g1, l1⟩ := (add_scan_tail gf dbg _).1 _ _ _ _ hl h1
  obtain ⟨R2, g2, l2⟩ := fullDecode_tail l1 h
  exact ⟨R2, ⟨_, g1, g2⟩, l2⟩

theorem link_tail {sources : OMap DSource} (xs : List Nat) {r r' : DRepair} (hr : RLong r r') {m : OMap (List Nat)}
    {x : DRepair × OMap (List Nat)} (h : xs.foldlM (linkStep gf dbg sources) (r, m) = .ok x) :
    ∃ y, xs.foldlM (linkStep gf dbg sources) (r', m) = .ok (y, x.2) ∧ RLong x.1 y := by
  induction xs generalizing r r' m with
  | nil => cases h; exact ⟨r', rfl, hr⟩
  | cons k t ih =>
    rw [List.foldlM_cons, bind_ok_iff] at h
    obtain ⟨⟨r1, m1⟩, h1, h⟩ := h
    have : ∃ r1', linkStep gf dbg sources (r', m) k = .ok (r1', m1) ∧ RLong r1 r1' := by
      unfold linkStep at h1 ⊢
      simp only at h1 ⊢
      split at h1
      · simp only [bind_ok_iff] at h1 ⊢
        obtain ⟨r2, h2, h1⟩ := h1
        cases h1
        obtain ⟨r2', k1, k2⟩ := removeData_ext hr h2
        exact ⟨_, ⟨r2', k1, rfl⟩, k2.id, by simp only [k2.ids], k2.enc, k2.sym, k2.buf⟩
      · rw [hr.id]
        split at h1
        · rename_i hc; rw [if_pos hc]; cases h1; exact ⟨r', rfl, hr⟩
        · rename_i hc; rw [if_neg hc]; cases h1; exact ⟨r', rfl, hr⟩
    obtain ⟨r1', k1, k2⟩ := this
    obtain ⟨y, k3, k4⟩ := ih k2 h
    refine ⟨y, ?_, k4⟩
    rw [List.foldlM_cons, bind_ok_iff]
    exact ⟨_, k1, k3⟩

theorem onRepair_tail {r r' : DRepair} (hr : RLong r r') {R : OMap DRepair} (hl : Longer s.repairs R)
    (h : s.onRepair gf dbg r = .ok s') :
    ∃ R', (s.withR R).onRepair gf dbg r' = .ok (s'.withR R') ∧ Longer s'.repairs R' := by
  unfold Dec.onRepair at h ⊢
  rw [show (s.withR R).lastId = s.lastId from rfl, show (s.withR R).repairs = R from rfl, hl.has, hr.ids, hr.id]
  simp only [bind_ok_iff] at h ⊢
  obtain ⟨_, a1, h⟩ := h
  split at h
  · rename_i lastIn firstIn e1 e2
    split at h
    · rename_i hc; cases h
      refine ⟨R, ⟨(), a1, ?_⟩, hl⟩
      rw [if_pos hc]; rfl
    rename_i hc
    split at h
    · rename_i hc2; cases h
      refine ⟨R, ⟨(), a1, ?_⟩, hl⟩
      rw [if_neg hc, if_pos hc2]; rfl
    rename_i hc2
    simp only [bind_ok_iff] at h
    obtain ⟨s1, h1, h⟩ := h
    obtain ⟨R1, g1, l1⟩ := dropOutdated_tail hl h1
    split at h
    · rename_i hc3; cases h
      refine ⟨R1, ⟨(), a1, ?_⟩, l1⟩
      rw [if_neg hc, if_neg hc2]
      refine bind_ok_iff.2 ⟨_, g1, ?_⟩
      rw [if_pos (by exact hc3)]; rfl
    rename_i hc3
    simp only [bind_ok_iff] at h
    obtain ⟨_, a0, ⟨y, m⟩, h2, _, a2, h⟩ := h
    replace a0 : ensure (linksAlive R1 s1.missing (r.ids.filter (fun x => !s1.sources.has x))) .dangling = .ok () := by rw [l1.alive]; exact a0
    obtain ⟨y', k1, k2⟩ := link_tail _ hr h2
    simp only at k1 k2
    have hl2 : Longer (s1.repairs.emplace y.id y) (R1.emplace y'.id y') := by
      rw [k2.id]; exact l1.emplace _ k2
    split at h
    · rename_i hc4
      simp only [bind_ok_iff] at h
      obtain ⟨src, h3, h⟩ := h
      obtain ⟨R2, g2, l2⟩ := (add_scan_tail gf dbg _).1 _ _ _ ((R1.emplace y'.id y').erase y.id) (hl2.erase y.id) h
      refine ⟨R2, ⟨(), a1, ?_⟩, l2⟩
      rw [if_neg hc, if_neg hc2]
      refine bind_ok_iff.2 ⟨_, g1, ?_⟩
      rw [if_neg (by exact hc3)]
      refine bind_ok_iff.2 ⟨(), a0, bind_ok_iff.2 ⟨_, k1, ?_⟩⟩
      simp only
      rw [k2.ids]
      refine bind_ok_iff.2 ⟨(), a2, ?_⟩
      rw [if_pos hc4]
      refine bind_ok_iff.2 ⟨src, createSource_ext k2 h3, ?_⟩
      rw [show y'.id = y.id from k2.id] at g2 ⊢
      refine Eq.trans ?_ g2
      congr 1
      unfold Dec.fuel Dec.withR
      simp only
      rw [((show Longer (s1.repairs.emplace y.id y) (R1.emplace y.id y') by
        rw [← k2.id] at *; exact hl2).erase y.id).length]
    · rename_i hc4
      obtain ⟨R2, g2, l2⟩ := fullDecode_tail (s := { s1 with repairs := s1.repairs.emplace y.id y, missing := m }) hl2 h
      refine ⟨R2, ⟨(), a1, ?_⟩, l2⟩
      rw [if_neg hc, if_neg hc2]
      refine bind_ok_iff.2 ⟨_, g1, ?_⟩
      rw [if_neg (by exact hc3)]
      refine bind_ok_iff.2 ⟨(), a0, bind_ok_iff.2 ⟨_, k1, ?_⟩⟩
      simp only
      rw [k2.ids]
      refine bind_ok_iff.2 ⟨(), a2, ?_⟩
      rw [if_neg hc4]
      exact g2
  · cases h

end

/-! ## ntc::decoder -/

/-- The decoder with other repairs. -/
def NDec.withR (d : NDec) (R : OMap DRepair) : NDec := { d with det := d.det.withR R }

theorem maybeAckWith_R (clk : Clock) (d : NDec) (held : List Nat) (R : OMap DRepair) :
    (d.withR R).maybeAckWith clk held = (d.maybeAckWith clk held).withR R := by
  unfold NDec.maybeAckWith
  rw [show (d.withR R).ackPackets = d.ackPackets from rfl, show (d.withR R).ackNb = d.ackNb from rfl,
    show (d.withR R).ackPeriod = d.ackPeriod from rfl]
  split
  · rfl
  · split
    · simp only
      split
      · rename_i hc; rw [if_pos (by exact hc)]; rfl
      · rename_i hc; rw [if_neg (by exact hc)]; rfl
    · rfl

theorem handleSource_R (clk : Clock) (d : NDec) (ev : Event) (R : OMap DRepair) :
    (d.withR R).handleSource clk ev = (d.handleSource clk ev).withR R := maybeAckWith_R clk { d with data := d.data ++ [ev.data] } ev.held R

theorem foldHandle_R (clk : Clock) (l : List Event) (d : NDec) (R : OMap DRepair) :
    l.foldl (NDec.handleSource clk) (d.withR R) = (l.foldl (NDec.handleSource clk) d).withR R := by
  induction l generalizing d with
  | nil => rfl
  | cons ev t ih => rw [List.foldl_cons, List.foldl_cons, handleSource_R, ih]

theorem afterDet_R (clk : Clock) (d : NDec) (det' : Dec) (R R' : OMap DRepair) :
    (d.withR R).afterDet clk (det'.withR R') = (d.afterDet clk det').withR R' := by
  unfold NDec.afterDet
  exact foldHandle_R clk _ { d with det := det' } R'

theorem foldHandle_repairs (clk : Clock) (l : List Event) (d : NDec) :
    (l.foldl (NDec.handleSource clk) d).det = d.det := by
  induction l generalizing d with
  | nil => rfl
  | cons ev t ih =>
    rw [List.foldl_cons, ih]
    exact maybeAckWith_det clk _ _

theorem getPacketType_append {p : List Byte} (hp : p ≠ []) (j : List Byte) : getPacketType (p ++ j) = getPacketType p := by
  cases p with
  | nil => exact absurd rfl hp
  | cons a t => rfl

/-- The view of a decoder does not include the bytes that follow the symbol of a repair. -/
theorem withR_same (d : NDec) (R : OMap DRepair) : SameView d (d.withR R) := by
  constructor <;> first | rfl | exact ⟨rfl, rfl, rfl⟩ | exact ⟨rfl, rfl, rfl, rfl⟩

theorem readSource_err {p : List Byte} {x : CppErr} (h : readSource p = .error (.cpp x)) : x = .overflow := by
  rcases readSource_total p with ⟨_, _, h1, _⟩ | h1 <;> rw [h] at h1 <;> cases h1
  rfl

theorem readRepair_err {p : List Byte} {x : CppErr} (h : readRepair p = .error (.cpp x)) : x = .overflow := by
  rcases readRepair_total p with ⟨_, _, h1, _⟩ | h1 <;> rw [h] at h1 <;> cases h1
  rfl

theorem readAck_err {p : List Byte} {x : CppErr} (h : readAck p = .error (.cpp x)) : x = .overflow := by
  rcases readAck_total p with ⟨_, _, h1, _⟩ | h1 <;> rw [h] at h1 <;> cases h1
  rfl

/-- A packet the decoder can read, followed by other bytes. -/
theorem notify_tail {gf : GF w} {dbg : Bool} {clk : Clock} {d d' : NDec} {p : List Byte} {o : Except CppErr Nat}
    {R : OMap DRepair} (hl : Longer d.det.repairs R) (h : d.notify gf dbg clk p = .ok (d', o)) (ho : o ≠ .error .overflow)
    (j : List Byte) :
    ∃ R', (d.withR R).notify gf dbg clk (p ++ j) = .ok (d'.withR R', o) ∧ Longer d'.det.repairs R' := by
  have hp : p ≠ [] := by
    rintro rfl
    unfold NDec.notify at h
    obtain ⟨_, _, h⟩ := bind_ok_iff.1 h
    cases h
  by_cases hs : getPacketType p = .ok .source
  · rw [NDec.notify_of_source _ _ _ _ hs] at h
    rw [NDec.notify_of_source _ _ _ _ (by rw [getPacketType_append hp]; exact hs)]
    split at h
    · cases h
    · rename_i x hx; cases h
      exact absurd (by rw [readSource_err hx]) ho
    · rename_i src k hr
      obtain ⟨det', h1, h2⟩ := map_ok_iff.1 h
      cases h2
      obtain ⟨R', k1, k2⟩ := onSource_tail hl h1
      rw [readSource_ext hr j]
      refine ⟨R', map_ok_iff.2 ⟨_, k1, ?_⟩, ?_⟩
      · rw [← afterDet_R clk d.gotSource det' R R']; rfl
      · unfold NDec.afterDet; rw [foldHandle_repairs]; exact k2
  · by_cases hr : getPacketType p = .ok .repair
    · rw [NDec.notify_of_repair _ _ _ _ hr] at h
      rw [NDec.notify_of_repair _ _ _ _ (by rw [getPacketType_append hp]; exact hr)]
      split at h
      · cases h
      · rename_i x hx; cases h
        exact absurd (by rw [readRepair_err hx]) ho
      · rename_i r k hrd
        obtain ⟨det', h1, h2⟩ := map_ok_iff.1 h
        cases h2
        obtain ⟨r', q1, q2⟩ := readRepair_ext hrd j
        obtain ⟨R', k1, k2⟩ := onRepair_tail q2 hl h1
        rw [q1]
        refine ⟨R', map_ok_iff.2 ⟨_, k1, ?_⟩, ?_⟩
        · rw [← afterDet_R clk d.gotRepair det' R R']; rfl
        · unfold NDec.afterDet; rw [foldHandle_repairs]; exact k2
    · rw [NDec.notify_of_other _ _ _ _ hp hs hr] at h
      rw [NDec.notify_of_other _ _ _ _ (by simp [hp]) (by rw [getPacketType_append hp]; exact hs)
        (by rw [getPacketType_append hp]; exact hr)]
      cases h
      exact ⟨R, rfl, hl⟩

/-- An ack the encoder can read, followed by other bytes. -/
theorem Enc.notify_tail {F : F64} {dbg : Bool} {e e' : Enc} {p : List Byte} {o : Except CppErr Nat}
    (h : e.notify F dbg p = .ok (e', o)) (ho : o ≠ .error .overflow) (j : List Byte) :
    e.notify F dbg (p ++ j) = .ok (e', o) := by
  have hp : p ≠ [] := by
    rintro rfl
    unfold Enc.notify at h
    obtain ⟨_, _, h⟩ := bind_ok_iff.1 h
    cases h
  by_cases ha : getPacketType p = .ok .ack
  · rw [Enc.notify_of_ack _ _ _ ha] at h
    rw [Enc.notify_of_ack _ _ _ (by rw [getPacketType_append hp]; exact ha)]
    split at h
    · cases h
    · rename_i x hx; cases h
      exact absurd (by rw [readAck_err hx]) ho
    · rename_i a n hx
      rw [readAck_ext hx j]; exact h
  · rw [Enc.notify_of_other _ _ _ hp ha] at h
    rw [Enc.notify_of_other _ _ _ (by simp [hp]) (by rw [getPacketType_append hp]; exact ha)]
    exact h

/-! ## Histories -/

theorem generateAck_R (d : NDec) (R : OMap DRepair) : (d.withR R).generateAck = d.generateAck.withR R := rfl

theorem maybeAck_R (clk : Clock) (d : NDec) (R : OMap DRepair) : (d.withR R).maybeAck clk = (d.maybeAck clk).withR R :=
  maybeAckWith_R clk d d.det.sources.keys R

theorem setAckNb_R {dbg : Bool} {d d' : NDec} {n : Nat} (h : d.setAckNb dbg n = .ok d') (R : OMap DRepair) :
    (d.withR R).setAckNb dbg n = .ok (d'.withR R) := by
  unfold NDec.setAckNb at *
  obtain ⟨_, h1, h⟩ := bind_ok_iff.1 h
  cases h
  exact bind_ok_iff.2 ⟨(), h1, rfl⟩

theorem setAckNb_det {dbg : Bool} {d d' : NDec} {n : Nat} (h : d.setAckNb dbg n = .ok d') : d'.det = d.det := by
  unfold NDec.setAckNb at *
  obtain ⟨_, h1, h⟩ := bind_ok_iff.1 h
  cases h; rfl

theorem Complete.no_overflow {p : List Byte} (hc : Complete p) {gf : GF w} {dbg : Bool} {clk : Clock} {d d' : NDec}
    {o : Except CppErr Nat} (h : d.notify gf dbg clk p = .ok (d', o)) : o ≠ .error .overflow := by
  have hp : p ≠ [] := by
    rintro rfl
    unfold NDec.notify at h
    obtain ⟨_, _, h⟩ := bind_ok_iff.1 h
    cases h
  rintro rfl
  by_cases hs : getPacketType p = .ok .source
  · rw [NDec.notify_of_source _ _ _ _ hs] at h
    obtain ⟨a, ha⟩ := hc.source hs
    rw [ha] at h
    obtain ⟨_, _, h2⟩ := map_ok_iff.1 h
    cases h2
  · by_cases hr : getPacketType p = .ok .repair
    · rw [NDec.notify_of_repair _ _ _ _ hr] at h
      obtain ⟨a, ha⟩ := hc.repair hr
      rw [ha] at h
      obtain ⟨_, _, h2⟩ := map_ok_iff.1 h
      cases h2
    · rw [NDec.notify_of_other _ _ _ _ hp hs hr] at h
      cases h

theorem Complete.no_overflow_enc {p : List Byte} (hc : Complete p) {F : F64} {dbg : Bool} {e e' : Enc}
    {o : Except CppErr Nat} (h : e.notify F dbg p = .ok (e', o)) : o ≠ .error .overflow := by
  have hp : p ≠ [] := by
    rintro rfl
    unfold Enc.notify at h
    obtain ⟨_, _, h⟩ := bind_ok_iff.1 h
    cases h
  rintro rfl
  by_cases ha : getPacketType p = .ok .ack
  · rw [Enc.notify_of_ack _ _ _ ha] at h
    obtain ⟨a, hx⟩ := hc.ack ha
    rw [hx] at h
    cases h
  · rw [Enc.notify_of_other _ _ _ hp ha] at h
    cases h

theorem act_tail {gf : GF w} {dbg : Bool} {clk : Clock} {d d' : NDec} {a b : DAct} (hab : DAct.Padded a b)
    {R : OMap DRepair} (hl : Longer d.det.repairs R) (h : d.act gf dbg clk a = .ok d') :
    ∃ R', (d.withR R).act gf dbg clk b = .ok (d'.withR R') ∧ Longer d'.det.repairs R' := by
  cases hab with
  | packet p j hc =>
    simp only [NDec.act] at h ⊢
    obtain ⟨⟨d1, o⟩, h1, h2⟩ := map_ok_iff.1 h
    cases h2
    obtain ⟨R', k1, k2⟩ := notify_tail hl h1 (hc.no_overflow h1) j
    exact ⟨R', map_ok_iff.2 ⟨_, k1, rfl⟩, k2⟩
  | other a ha =>
    cases a with
    | packet p => exact absurd rfl (ha p)
    | genAck => simp only [NDec.act] at h ⊢; cases h; exact ⟨R, rfl, hl⟩
    | maybeAck =>
      simp only [NDec.act] at h ⊢; cases h
      exact ⟨R, by rw [maybeAck_R], by unfold NDec.maybeAck; rw [maybeAckWith_det]; exact hl⟩
    | setAckNb n =>
      simp only [NDec.act] at h ⊢
      exact ⟨R, setAckNb_R h R, by rw [setAckNb_det h]; exact hl⟩
    | setAckPeriod ms => simp only [NDec.act] at h ⊢; cases h; exact ⟨R, rfl, hl⟩

theorem after_tail {gf : GF w} {dbg : Bool} {clk : Clock} {acts acts' : List DAct} (hab : List.Forall₂ DAct.Padded acts acts')
    {d d' : NDec} {R : OMap DRepair} (hl : Longer d.det.repairs R) (h : d.after gf dbg clk acts = .ok d') :
    ∃ R', (d.withR R).after gf dbg clk acts' = .ok (d'.withR R') ∧ Longer d'.det.repairs R' := by
  induction hab generalizing d R with
  | nil => cases h; exact ⟨R, rfl, hl⟩
  | cons h1 _ ih =>
    unfold NDec.after at *
    rw [List.foldlM_cons, bind_ok_iff] at h
    obtain ⟨d1, h2, h⟩ := h
    obtain ⟨R1, k1, k2⟩ := act_tail h1 hl h2
    obtain ⟨R2, k3, k4⟩ := ih k2 h
    refine ⟨R2, ?_, k4⟩
    rw [List.foldlM_cons, bind_ok_iff]
    exact ⟨_, k1, k3⟩

theorem Enc.act_tail {gf : GF w} {F : F64} {dbg : Bool} {e e' : Enc} {a b : EAct} (hab : EAct.Padded a b)
    (h : e.act gf F dbg a = .ok e') : e.act gf F dbg b = .ok e' := by
  cases hab with
  | packet p j hc =>
    simp only [Enc.act] at h ⊢
    obtain ⟨⟨e1, o⟩, h1, h2⟩ := map_ok_iff.1 h
    cases h2
    exact map_ok_iff.2 ⟨_, Enc.notify_tail h1 (hc.no_overflow_enc h1) j, rfl⟩
  | other a ha => exact h

/-! ## The closed system -/

theorem step_tail {c : Cfg w} {s s' : Sys} {a : Act} (j : List Byte) {R : OMap DRepair} (hl : Longer s.dec.det.repairs R)
    (h : s.step c a = .ok s') (he : s'.errs = s.errs) :
    ∃ R', Sys.stepPadded c { s with dec := s.dec.withR R } a j = .ok { s' with dec := s'.dec.withR R' } ∧
      Longer s'.dec.det.repairs R' := by
  cases a with
  | deliver i =>
    simp only [Sys.step, Sys.stepPadded] at h ⊢
    cases hp : s.enc.out[i]? with
    | none => simp only [hp] at h ⊢; cases h; exact ⟨R, rfl, hl⟩
    | some p =>
      simp only [hp] at h ⊢
      obtain ⟨⟨d, o⟩, h1, h2⟩ := bind_ok_iff.1 h
      cases h2
      have ho : o ≠ .error .overflow := by
        rintro rfl
        simp only [errCount] at he
        omega
      obtain ⟨R', k1, k2⟩ := notify_tail hl h1 ho j
      exact ⟨R', bind_ok_iff.2 ⟨_, k1, rfl⟩, k2⟩
  | ack i =>
    simp only [Sys.step, Sys.stepPadded] at h ⊢
    rw [show (s.dec.withR R).out = s.dec.out from rfl]
    cases hp : s.dec.out[i]? with
    | none => simp only [hp] at h ⊢; cases h; exact ⟨R, rfl, hl⟩
    | some p =>
      simp only [hp] at h ⊢
      obtain ⟨⟨e, o⟩, h1, h2⟩ := bind_ok_iff.1 h
      cases h2
      have ho : o ≠ .error .overflow := by
        rintro rfl
        simp only [errCount] at he
        omega
      exact ⟨R, bind_ok_iff.2 ⟨_, Enc.notify_tail h1 ho j, rfl⟩, hl⟩
  | commit d =>
    simp only [Sys.step, Sys.stepPadded] at h ⊢
    obtain ⟨e, h1, h2⟩ := bind_ok_iff.1 h
    cases h2
    exact ⟨R, bind_ok_iff.2 ⟨_, h1, rfl⟩, hl⟩
  | repair =>
    simp only [Sys.step, Sys.stepPadded] at h ⊢
    obtain ⟨e, h1, h2⟩ := bind_ok_iff.1 h
    cases h2
    exact ⟨R, bind_ok_iff.2 ⟨_, h1, rfl⟩, hl⟩
  | setRate n =>
    simp only [Sys.step, Sys.stepPadded] at h ⊢
    obtain ⟨e, h1, h2⟩ := bind_ok_iff.1 h
    cases h2
    exact ⟨R, bind_ok_iff.2 ⟨_, h1, rfl⟩, hl⟩
  | setWindow n =>
    simp only [Sys.step, Sys.stepPadded] at h ⊢
    obtain ⟨e, h1, h2⟩ := bind_ok_iff.1 h
    cases h2
    exact ⟨R, bind_ok_iff.2 ⟨_, h1, rfl⟩, hl⟩
  | setAdaptive b => simp only [Sys.step, Sys.stepPadded] at h ⊢; cases h; exact ⟨R, rfl, hl⟩
  | setSystematic b => simp only [Sys.step, Sys.stepPadded] at h ⊢; cases h; exact ⟨R, rfl, hl⟩
  | genAck => simp only [Sys.step, Sys.stepPadded] at h ⊢; cases h; exact ⟨R, rfl, hl⟩
  | maybeAck =>
    simp only [Sys.step, Sys.stepPadded] at h ⊢; cases h
    exact ⟨R, by rw [maybeAck_R]; rfl, by simp only [NDec.maybeAck]; rw [maybeAckWith_det]; exact hl⟩
  | setAckNb n =>
    simp only [Sys.step, Sys.stepPadded] at h ⊢
    obtain ⟨d, h1, h2⟩ := bind_ok_iff.1 h
    cases h2
    exact ⟨R, bind_ok_iff.2 ⟨_, setAckNb_R h1 R, rfl⟩, by rw [setAckNb_det h1]; exact hl⟩
  | setAckPeriod ms => simp only [Sys.step, Sys.stepPadded] at h ⊢; cases h; exact ⟨R, rfl, hl⟩

theorem step_errs {c : Cfg w} {s s' : Sys} {a : Act} (h : s.step c a = .ok s') : s.errs ≤ s'.errs := by
  cases a <;> simp only [Sys.step] at h
  case deliver =>
    split at h
    · cases h; exact Nat.le_refl _
    · obtain ⟨_, _, h2⟩ := bind_ok_iff.1 h
      cases h2; exact Nat.le_add_right _ _
  case ack =>
    split at h
    · cases h; exact Nat.le_refl _
    · obtain ⟨_, _, h2⟩ := bind_ok_iff.1 h
      cases h2; exact Nat.le_add_right _ _
  all_goals first
    | (cases h; exact Nat.le_refl _)
    | (obtain ⟨_, _, h2⟩ := bind_ok_iff.1 h; cases h2; exact Nat.le_refl _)

theorem run_errs {c : Cfg w} {s s' : Sys} {acts : List Act} (h : s.run c acts = .ok s') : s.errs ≤ s'.errs := by
  induction acts generalizing s with
  | nil => cases h; exact Nat.le_refl _
  | cons a t ih =>
    unfold Sys.run at *
    rw [List.foldlM_cons, bind_ok_iff] at h
    obtain ⟨s1, h1, h⟩ := h
    exact Nat.le_trans (step_errs h1) (ih h)

theorem run_tail {c : Cfg w} {s s' : Sys} (acts : List (Act × List Byte)) {R : OMap DRepair}
    (hl : Longer s.dec.det.repairs R) (h : s.run c (acts.map (·.1)) = .ok s') (he : s'.errs = s.errs) :
    ∃ R', Sys.runPadded c { s with dec := s.dec.withR R } acts = .ok { s' with dec := s'.dec.withR R' } ∧
      Longer s'.dec.det.repairs R' := by
  induction acts generalizing s R with
  | nil => cases h; exact ⟨R, rfl, hl⟩
  | cons a t ih =>
    obtain ⟨a, j⟩ := a
    unfold Sys.run at h ih
    rw [List.map_cons, List.foldlM_cons, bind_ok_iff] at h
    obtain ⟨s1, h1, h⟩ := h
    have e1 := step_errs h1
    have e2 := run_errs (show s1.run c (t.map (·.1)) = .ok s' from h)
    obtain ⟨R1, k1, k2⟩ := step_tail j hl h1 (by omega)
    obtain ⟨R2, k3, k4⟩ := ih k2 h (by omega)
    refine ⟨R2, ?_, k4⟩
    unfold Sys.runPadded at *
    rw [List.foldlM_cons, bind_ok_iff]
    exact ⟨_, k1, k3⟩

theorem inTime_withR {gf : GF w} {s : Sys} {R : OMap DRepair} {i : Nat} (hR : keyIds R = keyIds s.dec.det.repairs) :
    { s with dec := s.dec.withR R }.InTime gf i ↔ s.InTime gf i := by
  have hN : ∀ x, (s.dec.withR R).det.NoClash gf x ↔ s.dec.det.NoClash gf x := fun x => noClash_congr hR rfl
  simp only [Sys.InTime, hN]
  exact Iff.rfl

theorem harmless_withR {s : Sys} {R : OMap DRepair} {rid : Nat} {ids : List Nat} (hR : keyIds R = keyIds s.dec.det.repairs) :
    (s.dec.withR R).det.Harmless rid ids ↔ s.dec.det.Harmless rid ids := by
  have h1 : R.has rid = s.dec.det.repairs.has rid := by
    have : R.map (·.1) = s.dec.det.repairs.map (·.1) := by
      have := congrArg (List.map (·.1)) hR
      simpa [keyIds, List.map_map, Function.comp_def] using this
    rw [Bool.eq_iff_iff, OMap.has_iff, OMap.has_iff, this]
  have h2 : R = [] ↔ s.dec.det.repairs = [] := by
    have := congrArg List.length hR
    simp only [keyIds, List.length_map] at this
    rw [← List.length_eq_zero_iff, ← List.length_eq_zero_iff, this]
  unfold Dec.Harmless
  rw [show (s.dec.withR R).det.lastId = s.dec.det.lastId from rfl, show (s.dec.withR R).det.repairs = R from rfl,
    show (s.dec.withR R).det.sources = s.dec.det.sources from rfl, h1, h2]

theorem mayArrive_withR {s : Sys} {R : OMap DRepair} {i : Nat} {r : ERepair} (hR : keyIds R = keyIds s.dec.det.repairs) :
    { s with dec := s.dec.withR R }.MayArrive i r ↔ s.MayArrive i r :=
  or_congr Iff.rfl (harmless_withR hR)

theorem allowed_withR {c : Cfg w} {s : Sys} {R : OMap DRepair} {a : Act} (hR : keyIds R = keyIds s.dec.det.repairs) :
    Allowed c { s with dec := s.dec.withR R } a ↔ Allowed c s a := by
  cases a with
  | deliver i =>
    cases hi : s.enc.out[i]? with
    | none => simp only [Allowed, hi]
    | some p =>
      cases p with
      | repair r =>
        simp only [Allowed, hi]
        exact and_congr (mayArrive_withR hR) Iff.rfl
      | source sr =>
        simp only [Allowed, hi]
        exact inTime_withR hR
  | _ => exact Iff.rfl

end Netcode
