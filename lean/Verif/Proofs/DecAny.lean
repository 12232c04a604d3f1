import Verif.Proofs.DecFrame
import Mathlib.Tactic.Ring

/-!
# Termination and consumption of repairs, whatever the state of the decoder
-/

set_option linter.unusedSectionVars false

namespace Netcode

open OMap

variable {w : Nat}

/-! ## Each decoded source, failed decoding and useless repair uses up a repair -/

/-- `k` is the number of repairs added. -/
structure Uses (k : Nat) (s s' : Dec) : Prop where
  reps : (s'.nbDecoded + s'.nbFailed + s'.nbUseless) + s'.repairs.length ≤ (s.nbDecoded + s.nbFailed + s.nbUseless) + s.repairs.length + k
  len : s'.repairs.length ≤ s.repairs.length + k
  mis : k = 0 → List.Sublist s'.missing.keys s.missing.keys

/-- The part of the state that the delivery does not touch. -/
structure SameB (s s' : Dec) : Prop where
  repairs : s'.repairs = s.repairs
  missing : s'.missing = s.missing
  dec : (s'.nbDecoded + s'.nbFailed + s'.nbUseless) = (s.nbDecoded + s.nbFailed + s.nbUseless)

theorem SameB.refl (s : Dec) : SameB s s := ⟨rfl, rfl, rfl⟩

theorem SameB.trans {a b c : Dec} (h1 : SameB a b) (h2 : SameB b c) : SameB a c :=
  ⟨h2.repairs.trans h1.repairs, h2.missing.trans h1.missing, h2.dec.trans h1.dec⟩

theorem SameB.uses {s s' : Dec} (h : SameB s s') : Uses 0 s s' :=
  ⟨by rw [h.repairs, h.dec]; exact Nat.le_refl _, by rw [h.repairs]; exact Nat.le_refl _, fun _ => by rw [h.missing]⟩

theorem Uses.refl (s : Dec) : Uses 0 s s := (SameB.refl s).uses

theorem Uses.trans {a b c : Dec} (h1 : Uses 0 a b) (h2 : Uses 0 b c) : Uses 0 a c :=
  ⟨by have := h1.reps; have := h2.reps; omega, by have := h1.len; have := h2.len; omega,
    fun _ => (h2.mis rfl).trans (h1.mis rfl)⟩

theorem callbackOrdered_same {s s' : Dec} {id : Nat} (h : s.callbackOrdered id = .ok s') : SameB s s' := by
  unfold Dec.callbackOrdered at h
  split at h
  · cases h
  · cases h; exact ⟨rfl, rfl, rfl⟩

theorem flushLoop_same (dbg : Bool) (l : List Nat) (s s' : Dec) (h : flushLoop dbg l s = .ok s') : SameB s s' := by
  induction l generalizing s with
  | nil => cases h; exact SameB.refl _
  | cons id rest ih =>
    unfold flushLoop at h
    rw [bind_ok_iff] at h
    obtain ⟨_, _, h⟩ := h
    rw [bind_ok_iff] at h
    obtain ⟨s1, h1, h⟩ := h
    have e1 := callbackOrdered_same h1
    have e2 : SameB s { s1 with ordered := s1.ordered.erase id, firstMissing := (s1.firstMissing + 1) % 2 ^ 32 } :=
      ⟨e1.repairs, e1.missing, e1.dec⟩
    cases rest with
    | nil => cases h; exact e2
    | cons nxt t =>
      simp only at h
      split at h
      · cases h; exact e2
      · exact e2.trans (ih _ h)

theorem flush_same {dbg : Bool} {s s' : Dec} (h : s.flush dbg = .ok s') : SameB s s' := by
  unfold Dec.flush at h
  split at h
  · exact flushLoop_same _ _ _ _ h
  · cases h; exact SameB.refl _

theorem removeFromAll_uses (gf : GF w) (dbg : Bool) (src : DSource) (l : List Nat) (s s' : Dec)
    (h : removeFromAll gf dbg src l s = .ok s') :
    s'.repairs.length = s.repairs.length ∧ s'.missing = s.missing ∧ (s'.nbDecoded + s'.nbFailed + s'.nbUseless) = (s.nbDecoded + s.nbFailed + s.nbUseless) := by
  induction l generalizing s with
  | nil => cases h; exact ⟨rfl, rfl, rfl⟩
  | cons rid t ih =>
    unfold removeFromAll at h
    split at h
    · cases h
    · rw [bind_ok_iff] at h
      obtain ⟨r', _, h⟩ := h
      obtain ⟨a, b, c⟩ := ih _ h
      exact ⟨by rw [a]; simp only; exact length_modify _ _ _, b, c⟩

theorem giveNew_same {dbg : Bool} {src : DSource} {s s' : Dec} (h : s.giveNew dbg src = .ok s') : SameB s s' := by
  unfold Dec.giveNew at h
  split at h
  · cases h; exact ⟨rfl, rfl, rfl⟩
  · split at h
    · have := flush_same h
      exact ⟨this.repairs, this.missing, this.dec⟩
    · cases h; exact SameB.refl _

theorem keys_erase_sublist {V : Type} (m : OMap V) (k : Nat) : List.Sublist (m.erase k).keys m.keys :=
  List.filter_sublist.map _

theorem addSourceHead_uses {gf : GF w} {dbg : Bool} {src : DSource} {s s' : Dec}
    (h : addSourceHead gf dbg src s = .ok s') : Uses 0 s s' := by
  unfold addSourceHead at h
  rw [bind_ok_iff] at h
  obtain ⟨s1, h1, h⟩ := h
  have e1 := (giveNew_same h1).uses
  split at h
  · cases h; exact e1
  · rw [bind_ok_iff] at h
    obtain ⟨s2, h2, h⟩ := h
    cases h
    obtain ⟨a, b, c⟩ := removeFromAll_uses _ _ _ _ _ _ h2
    refine e1.trans ⟨?_, ?_, fun _ => ?_⟩
    · simp only; rw [a, c]; omega
    · simp only; rw [a]; omega
    · show List.Sublist (s2.missing.erase src.id).keys _
      rw [← b]; exact keys_erase_sublist _ _

theorem addSourceTail_same {dbg : Bool} {src : DSource} {s s' : Dec} (h : addSourceTail dbg src s = .ok s') :
    SameB s s' := by
  unfold addSourceTail at h
  rw [bind_ok_iff] at h
  obtain ⟨_, _, h⟩ := h
  simp only at h
  split at h <;> (cases h; exact ⟨rfl, rfl, rfl⟩)

theorem length_erase_lt {V : Type} {m : OMap V} {k : Nat} {v : V} (h : m.get? k = some v) :
    (m.erase k).length + 1 ≤ m.length := by
  have hm := mem_of_get? h
  unfold OMap.erase
  have : (m.filter (fun p => p.1 != k)).length < m.length := by
    rw [List.length_filter_lt_length_iff_exists]
    exact ⟨_, hm, by simp⟩
  omega

theorem add_scan_uses (gf : GF w) (dbg : Bool) (fuel : Nat) :
    (∀ src s s', addSource gf dbg fuel src s = .ok s' → Uses 0 s s') ∧
    (∀ k s s', scanMissing gf dbg fuel k s = .ok s' → Uses 0 s s') := by
  induction fuel with
  | zero =>
    constructor
    · intro src s s' h; unfold addSource at h; cases h
    · intro k s s' h
      cases k with
      | none => unfold scanMissing at h; cases h; exact Uses.refl _
      | some k => unfold scanMissing at h; cases h
  | succ fuel ih =>
    constructor
    · intro src s s' h
      unfold addSource at h
      rw [bind_ok_iff] at h
      obtain ⟨s1, h1, h⟩ := h
      rw [bind_ok_iff] at h
      obtain ⟨s2, h2, h⟩ := h
      exact ((addSourceHead_uses h1).trans (ih.2 _ _ _ h2)).trans (addSourceTail_same h).uses
    · intro k s s' h
      cases k with
      | none => unfold scanMissing at h; cases h; exact Uses.refl _
      | some k =>
        unfold scanMissing at h
        split at h
        · cases h
        · split at h
          · cases h
          · rename_i rid _ _ _ hrep
            split at h
            · rw [bind_ok_iff] at h
              obtain ⟨_, _, h⟩ := h
              rw [bind_ok_iff] at h
              obtain ⟨_, _, h⟩ := h
              rw [bind_ok_iff] at h
              obtain ⟨src, _, h⟩ := h
              simp only at h
              rw [bind_ok_iff] at h
              obtain ⟨s1, h1, h⟩ := h
              have e1 := ih.1 _ _ _ h1
              have e2 := ih.2 _ _ _ h
              have e3 := length_erase_lt hrep
              refine Uses.trans ⟨?_, ?_, fun _ => ?_⟩ e2
              · have := e1.reps; simp only at this; omega
              · have := e1.len; simp only at this; omega
              · exact (e1.mis rfl).trans (keys_erase_sublist _ _)
            · exact ih.2 _ _ _ h
        · exact ih.2 _ _ _ h

/-! ## No call runs out of fuel -/

/-- The outcome is not the exhaustion of the recursion bound. -/
def NoFuel {α : Type} (o : Out α) : Prop := o ≠ .error .fuel

theorem noFuel_ok {α : Type} (a : α) : NoFuel (.ok a : Out α) := by intro h; cases h
theorem noFuel_pure {α : Type} (a : α) : NoFuel (pure a : Out α) := by intro h; cases h
theorem noFuel_ub {α : Type} (k : UB) : NoFuel (.error (.ub k) : Out α) := by intro h; cases h

theorem noFuel_bind {α β : Type} {x : Out α} {f : α → Out β} (h1 : NoFuel x) (h2 : ∀ a, x = .ok a → NoFuel (f a)) :
    NoFuel (x >>= f) := by
  cases x with
  | error e => intro h; apply h1; simp only [bind, Except.bind] at h; cases h; rfl
  | ok a => exact h2 a rfl

theorem noFuel_cassert (dbg b : Bool) : NoFuel (cassert dbg b) := by
  unfold cassert NoFuel; split <;> simp

theorem noFuel_ensure (b : Bool) (k : UB) : NoFuel (ensure b k) := by
  unfold ensure NoFuel; split <;> simp

theorem noFuel_map {α β : Type} {x : Out α} {f : α → β} (h1 : NoFuel x) : NoFuel (x.map f) := by
  cases x with
  | error e => intro h; apply h1; simp only [Except.map] at h; cases h; rfl
  | ok a => exact noFuel_ok _

/-- Goes through a function that makes no unbounded recursion. -/
macro "nofuel" : tactic => `(tactic| repeat' first
    | assumption
    | exact noFuel_ok _
    | exact noFuel_pure _
    | exact noFuel_ub _
    | exact noFuel_cassert _ _
    | exact noFuel_ensure _ _
    | refine noFuel_bind ?_ (fun _ _ => ?_)
    | split)

theorem noFuel_mul (gf : GF w) (l : List Byte) (n : Nat) (c : BitVec w) : NoFuel (gfMultiply gf l n c) := by
  unfold gfMultiply; nofuel

theorem noFuel_mulAdd (gf : GF w) (a b : List Byte) (n : Nat) (c : BitVec w) : NoFuel (gfMultiplyAdd gf a b n c) := by
  unfold gfMultiplyAdd; nofuel

theorem noFuel_callbackOrdered (s : Dec) (id : Nat) : NoFuel (s.callbackOrdered id) := by
  unfold Dec.callbackOrdered; nofuel

theorem noFuel_flushLoop (dbg : Bool) (l : List Nat) (s : Dec) : NoFuel (flushLoop dbg l s) := by
  induction l generalizing s with
  | nil => exact noFuel_ok _
  | cons id rest ih =>
    unfold flushLoop
    refine noFuel_bind (noFuel_cassert _ _) (fun _ _ => noFuel_bind (noFuel_callbackOrdered _ _) (fun s1 _ => ?_))
    cases rest with
    | nil => exact noFuel_pure _
    | cons nxt t =>
      simp only
      split
      · exact noFuel_pure _
      · exact ih _

theorem noFuel_flush (dbg : Bool) (s : Dec) : NoFuel (s.flush dbg) := by
  unfold Dec.flush
  split
  · exact noFuel_flushLoop _ _ _
  · exact noFuel_ok _

theorem noFuel_createSource (gf : GF w) (dbg : Bool) (r : DRepair) : NoFuel (createSource gf dbg r) := by
  unfold createSource
  refine noFuel_bind (noFuel_cassert _ _) (fun _ _ => ?_)
  split
  · exact noFuel_ub _
  · exact noFuel_bind (noFuel_mul _ _ _ _) (fun _ _ => noFuel_pure _)

theorem noFuel_removeData (gf : GF w) (dbg : Bool) (src : DSource) (r : DRepair) :
    NoFuel (removeData gf dbg src r) := by
  unfold removeData
  exact noFuel_bind (noFuel_cassert _ _) (fun _ _ => noFuel_bind (noFuel_cassert _ _) (fun _ _ =>
    noFuel_bind (noFuel_mulAdd _ _ _ _ _) (fun _ _ => noFuel_pure _)))

theorem noFuel_removeFromRepair (gf : GF w) (dbg : Bool) (src : DSource) (r : DRepair) :
    NoFuel (removeFromRepair gf dbg src r) := by
  unfold removeFromRepair
  refine noFuel_bind (noFuel_removeData _ _ _ _) (fun _ _ => ?_)
  nofuel

theorem noFuel_removeFromAll (gf : GF w) (dbg : Bool) (src : DSource) (l : List Nat) (s : Dec) :
    NoFuel (removeFromAll gf dbg src l s) := by
  induction l generalizing s with
  | nil => exact noFuel_ok _
  | cons rid t ih =>
    unfold removeFromAll
    split
    · exact noFuel_ub _
    · exact noFuel_bind (noFuel_removeFromRepair _ _ _ _) (fun _ _ => ih _)

theorem noFuel_giveNew (dbg : Bool) (src : DSource) (s : Dec) : NoFuel (s.giveNew dbg src) := by
  unfold Dec.giveNew
  split
  · exact noFuel_ok _
  · split
    · exact noFuel_flush _ _
    · exact noFuel_ok _

theorem noFuel_addSourceHead (gf : GF w) (dbg : Bool) (src : DSource) (s : Dec) :
    NoFuel (addSourceHead gf dbg src s) := by
  unfold addSourceHead
  refine noFuel_bind (noFuel_giveNew _ _ _) (fun _ _ => ?_)
  split
  · exact noFuel_pure _
  · exact noFuel_bind (noFuel_removeFromAll _ _ _ _ _) (fun _ _ => noFuel_pure _)

theorem noFuel_addSourceTail (dbg : Bool) (src : DSource) (s : Dec) : NoFuel (addSourceTail dbg src s) := by
  unfold addSourceTail
  refine noFuel_bind (noFuel_cassert _ _) (fun _ _ => ?_)
  simp only
  split <;> exact noFuel_pure _

/-- Keys after the iterator. -/
def after (s : Dec) (k : Nat) : Nat := (s.missing.keys.filter (fun x => decide (k < x))).length

theorem after_le (s : Dec) (k : Nat) : after s k ≤ s.missing.length := by
  unfold after
  refine (List.length_filter_le _ _).trans ?_
  simp [OMap.keys]

theorem after_head {s : Dec} {k : Nat} (h : s.missing.keys.head? = some k) : after s k + 1 ≤ s.missing.length := by
  unfold after
  rw [show s.missing.length = s.missing.keys.length by simp [OMap.keys]]
  generalize s.missing.keys = l at h
  cases l with
  | nil => cases h
  | cons a t =>
    simp only [List.head?_cons, Option.some.injEq] at h
    subst h
    rw [List.filter_cons_of_neg (by simp)]
    have := List.length_filter_le (fun x => decide (a < x)) t
    simp only [List.length_cons]; omega

theorem after_next {m : OMap (List Nat)} {k k2 : Nat} (h : m.next? k = some k2) :
    (m.keys.filter (fun x => decide (k2 < x))).length + 1 ≤ (m.keys.filter (fun x => decide (k < x))).length := by
  obtain ⟨h1, h2⟩ := next?_mem h
  have h3 : m.keys.filter (fun x => decide (k2 < x)) =
      (m.keys.filter (fun x => decide (k < x))).filter (fun x => decide (k2 < x)) := by
    rw [List.filter_filter]
    apply List.filter_congr
    intro x _
    by_cases hx : k2 < x
    · simp [hx, Nat.lt_trans h2 hx]
    · simp [hx]
  rw [h3]
  have : ((m.keys.filter (fun x => decide (k < x))).filter (fun x => decide (k2 < x))).length <
      (m.keys.filter (fun x => decide (k < x))).length := by
    rw [List.length_filter_lt_length_iff_exists]
    exact ⟨k2, List.mem_filter.2 ⟨h1, by simpa using h2⟩, by simp⟩
  omega

theorem after_sub {a b : List Nat} (h : List.Sublist a b) (k : Nat) :
    (a.filter (fun x => decide (k < x))).length ≤ (b.filter (fun x => decide (k < x))).length :=
  (h.filter _).length_le

theorem len_keys {V : Type} (m : OMap V) : m.keys.length = m.length := by simp [OMap.keys]

theorem add_scan_fuel (gf : GF w) (dbg : Bool) (fuel : Nat) :
    (∀ src s, 1 + s.missing.length + s.repairs.length * (s.missing.length + 2) ≤ fuel →
      NoFuel (addSource gf dbg fuel src s)) ∧
    (∀ k s, (∀ k', k = some k' → 1 + after s k' + s.repairs.length * (s.missing.length + 2) ≤ fuel) →
      NoFuel (scanMissing gf dbg fuel k s)) := by
  induction fuel with
  | zero =>
    constructor
    · intro src s h; omega
    · intro k s h
      cases k with
      | none => unfold scanMissing; exact noFuel_ok _
      | some k => have := h k rfl; omega
  | succ fuel ih =>
    constructor
    · intro src s h
      unfold addSource
      refine noFuel_bind (noFuel_addSourceHead _ _ _ _) (fun s1 h1 => ?_)
      have u1 := addSourceHead_uses h1
      have m1 : s1.missing.length ≤ s.missing.length := by
        have := (u1.mis rfl).length_le
        rwa [len_keys, len_keys] at this
      have r1 : s1.repairs.length ≤ s.repairs.length := u1.len
      have p1 : s1.repairs.length * (s1.missing.length + 2) ≤ s.repairs.length * (s.missing.length + 2) :=
        Nat.mul_le_mul r1 (by omega)
      refine noFuel_bind (ih.2 _ _ ?_) (fun s2 _ => noFuel_addSourceTail _ _ _)
      intro k' hk
      have := after_head hk
      omega
    · intro k s h
      cases k with
      | none => unfold scanMissing; exact noFuel_ok _
      | some k =>
        have hk := h k rfl
        have hnext : ∀ k', s.missing.next? k = some k' →
            1 + after s k' + s.repairs.length * (s.missing.length + 2) ≤ fuel := by
          intro k' h'
          have := after_next h'
          unfold after at hk ⊢
          omega
        unfold scanMissing
        split
        · exact noFuel_ub _
        · split
          · exact noFuel_ub _
          · rename_i rid _ _ _ hrep
            split
            · refine noFuel_bind (noFuel_cassert _ _) (fun _ _ => noFuel_bind (noFuel_cassert _ _) (fun _ _ =>
                noFuel_bind (noFuel_createSource _ _ _) (fun src _ => ?_)))
              simp only
              have e3 := length_erase_lt hrep
              have e4 : (s.missing.erase k).length ≤ s.missing.length := by
                have := (keys_erase_sublist s.missing k).length_le
                rwa [len_keys, len_keys] at this
              have e5 : ((s.repairs.erase rid).length + 1) * (s.missing.length + 2) ≤
                  s.repairs.length * (s.missing.length + 2) := Nat.mul_le_mul e3 (Nat.le_refl _)
              rw [Nat.add_mul, Nat.one_mul] at e5
              have e6 : (s.repairs.erase rid).length * ((s.missing.erase k).length + 2) ≤
                  (s.repairs.erase rid).length * (s.missing.length + 2) := Nat.mul_le_mul (Nat.le_refl _) (by omega)
              refine noFuel_bind (ih.1 _ _ ?_) (fun s1 h1 => ih.2 _ _ ?_)
              · simp only
                omega
              · intro k' hk'
                have u1 := (add_scan_uses gf dbg fuel).1 _ _ _ h1
                have m1 := (u1.mis rfl)
                simp only at m1
                have m2 := m1.length_le
                rw [len_keys, len_keys] at m2
                have l1 := u1.len
                simp only at l1
                have a1 := after_next hk'
                have a2 := after_sub m1 k'
                have a3 := after_sub (keys_erase_sublist s.missing k) k
                have p1 : s1.repairs.length * (s1.missing.length + 2) ≤
                    (s.repairs.erase rid).length * (s.missing.length + 2) := Nat.mul_le_mul l1 (by omega)
                unfold after at hk ⊢
                omega
            · exact ih.2 _ _ hnext
        · exact ih.2 _ _ hnext

theorem noFuel_addSource (gf : GF w) (dbg : Bool) (src : DSource) (s : Dec) : NoFuel (addSource gf dbg s.fuel src s) := by
  apply (add_scan_fuel gf dbg _).1
  unfold Dec.fuel
  have : (s.repairs.length + 2) * (s.missing.length + 3) =
      s.repairs.length * (s.missing.length + 2) + s.repairs.length + 2 * (s.missing.length + 3) := by ring
  omega

theorem noFuel_unlinkAll (rid : Nat) (l : List Nat) (m : OMap (List Nat)) : NoFuel (unlinkAll rid l m) := by
  induction l generalizing m with
  | nil => exact noFuel_ok _
  | cons x t ih =>
    unfold unlinkAll
    split
    · exact ih _
    · exact noFuel_ub _

theorem noFuel_dropRepairs (dbg : Bool) (id : Nat) (l : OMap DRepair) (s : Dec) : NoFuel (dropRepairs dbg id l s) := by
  induction l generalizing s with
  | nil => exact noFuel_ok _
  | cons p t ih =>
    obtain ⟨rid, r⟩ := p
    unfold dropRepairs
    refine noFuel_bind (noFuel_cassert _ _) (fun _ _ => ?_)
    split
    · exact noFuel_ub _
    · split
      · exact noFuel_bind (noFuel_ensure _ _) (fun _ _ => noFuel_bind (noFuel_unlinkAll _ _ _) (fun _ _ => ih _))
      · exact ih _

theorem noFuel_giveOutdated (l : List Nat) (s : Dec) : NoFuel (giveOutdated l s) := by
  induction l generalizing s with
  | nil => exact noFuel_ok _
  | cons k t ih =>
    unfold giveOutdated
    exact noFuel_bind (noFuel_callbackOrdered _ _) (fun _ _ => ih _)

theorem noFuel_dropOutdated (dbg : Bool) (id : Nat) (s : Dec) : NoFuel (s.dropOutdated dbg id) := by
  unfold Dec.dropOutdated
  simp only
  refine noFuel_bind (noFuel_dropRepairs _ _ _ _) (fun s1 _ => noFuel_bind ?_ (fun _ _ => noFuel_pure _))
  unfold Dec.giveAllOutdated
  split
  · exact noFuel_bind (noFuel_giveOutdated _ _) (fun _ _ => noFuel_flush _ _)
  · exact noFuel_ok _

theorem noFuel_decodeSym (gf : GF w) (inv : Mat w) (col n : Nat) (l : List (DRepair × Nat)) (first : Bool)
    (sym : List Byte) : NoFuel (decodeSym gf inv col n l first sym) := by
  induction l generalizing first sym with
  | nil => exact noFuel_ok _
  | cons p t ih =>
    obtain ⟨r, row⟩ := p
    unfold decodeSym
    split
    · exact ih _ _
    · simp only
      split
      · exact noFuel_bind (noFuel_mul _ _ _ _) (fun _ _ => ih _ _)
      · exact noFuel_bind (noFuel_mulAdd _ _ _ _ _) (fun _ _ => ih _ _)

theorem noFuel_insertDecoded (dbg : Bool) (src : DSource) (s : Dec) : NoFuel (s.insertDecoded dbg src) := by
  unfold Dec.insertDecoded
  refine noFuel_bind (noFuel_cassert _ _) (fun _ _ => ?_)
  simp only
  split
  · exact noFuel_ub _
  · unfold Dec.giveDecoded
    split
    · exact noFuel_ok _
    · split
      · exact noFuel_flush _ _
      · exact noFuel_ok _

theorem noFuel_decodeLoop (gf : GF w) (dbg : Bool) (inv : Mat w) (reps : List DRepair) (l : List Nat) (col : Nat)
    (s : Dec) : NoFuel (decodeLoop gf dbg inv reps col l s) := by
  induction l generalizing col s with
  | nil => unfold decodeLoop; exact noFuel_ok _
  | cons x t ih =>
    unfold decodeLoop
    refine noFuel_bind ?_ (fun _ _ => noFuel_bind (noFuel_insertDecoded _ _ _) (fun _ _ => ih _ _))
    unfold decodeOne
    simp only
    exact noFuel_bind (noFuel_cassert _ _) (fun _ _ => noFuel_bind (noFuel_ensure _ _) (fun _ _ =>
      noFuel_decodeSym _ _ _ _ _ _ _))

theorem noFuel_fullDecode (gf : GF w) (dbg : Bool) (s : Dec) : NoFuel (s.fullDecode gf dbg) := by
  unfold Dec.fullDecode
  split
  · exact noFuel_pure _
  · split
    · exact noFuel_pure _
    · refine noFuel_bind (noFuel_cassert _ _) (fun _ _ => noFuel_bind (noFuel_cassert _ _) (fun _ _ =>
        noFuel_bind (noFuel_ensure _ _) (fun _ _ => ?_)))
      split
      · split
        · exact noFuel_ub _
        · exact noFuel_bind (noFuel_ensure _ _) (fun _ _ => noFuel_pure _)
      · exact noFuel_bind (noFuel_decodeLoop _ _ _ _ _ _ _) (fun _ _ => noFuel_pure _)

theorem noFuel_onSource (gf : GF w) (dbg : Bool) (s : Dec) (src : DSource) : NoFuel (s.onSource gf dbg src) := by
  unfold Dec.onSource
  split
  · exact noFuel_ok _
  · split
    · exact noFuel_ok _
    · exact noFuel_bind (noFuel_addSource _ _ _ _) (fun _ _ => noFuel_fullDecode _ _ _)

theorem noFuel_linkFold (gf : GF w) (dbg : Bool) (sources : OMap DSource) (l : List Nat)
    (st : DRepair × OMap (List Nat)) : NoFuel (l.foldlM (linkStep gf dbg sources) st) := by
  induction l generalizing st with
  | nil => exact noFuel_pure _
  | cons x t ih =>
    rw [List.foldlM_cons]
    refine noFuel_bind ?_ (fun _ _ => ih _)
    unfold linkStep
    obtain ⟨r, m⟩ := st
    simp only
    split
    · exact noFuel_bind (noFuel_removeData _ _ _ _) (fun _ _ => noFuel_pure _)
    · split <;> exact noFuel_pure _

theorem noFuel_onRepair (gf : GF w) (dbg : Bool) (s : Dec) (r : DRepair) : NoFuel (s.onRepair gf dbg r) := by
  unfold Dec.onRepair
  refine noFuel_bind (noFuel_cassert _ _) (fun _ _ => ?_)
  split
  · split
    · exact noFuel_pure _
    · split
      · exact noFuel_pure _
      · refine noFuel_bind (noFuel_dropOutdated _ _ _) (fun s1 _ => ?_)
        split
        · exact noFuel_pure _
        · refine noFuel_bind (noFuel_ensure _ _) (fun _ _ => noFuel_bind (noFuel_linkFold _ _ _ _ _) (fun p _ => ?_))
          obtain ⟨r1, m1⟩ := p
          simp only
          refine noFuel_bind (noFuel_cassert _ _) (fun _ _ => ?_)
          split
          · exact noFuel_bind (noFuel_createSource _ _ _) (fun _ _ => noFuel_addSource _ _ _ _)
          · exact noFuel_fullDecode _ _ _
  · exact noFuel_ub _

/-! ## The recursion bound does not matter -/

theorem add_scan_more (gf : GF w) (dbg : Bool) (fuel : Nat) :
    (∀ src s, NoFuel (addSource gf dbg fuel src s) →
      addSource gf dbg (fuel + 1) src s = addSource gf dbg fuel src s) ∧
    (∀ k s, NoFuel (scanMissing gf dbg fuel k s) →
      scanMissing gf dbg (fuel + 1) k s = scanMissing gf dbg fuel k s) := by
  induction fuel with
  | zero =>
    constructor
    · intro src s h; unfold addSource at h; exact absurd rfl h
    · intro k s h
      cases k with
      | none => unfold scanMissing; rfl
      | some k => unfold scanMissing at h; exact absurd rfl h
  | succ fuel ih =>
    have key : ∀ {α β : Type} {x y : Out α} {f g : α → Out β}, (NoFuel x → y = x) →
        (∀ a, x = .ok a → NoFuel (f a) → g a = f a) → NoFuel (x >>= f) → (y >>= g) = (x >>= f) := by
      intro α β x y f g h1 h2 h3
      have hx : NoFuel x := by
        intro h; apply h3; rw [h]; rfl
      rw [h1 hx]
      cases x with
      | error e => rfl
      | ok a => exact h2 a rfl h3
    constructor
    · intro src s h
      rw [addSource] at h
      rw [addSource, addSource]
      exact key (fun _ => rfl) (fun s1 _ => key (ih.2 _ _) (fun _ _ _ => rfl)) h
    · intro k s h
      cases k with
      | none => unfold scanMissing; rfl
      | some k =>
        rw [scanMissing] at h
        rw [scanMissing, scanMissing]
        split
        · rfl
        · rename_i rid hm
          rw [hm] at h
          simp only at h
          split
          · rfl
          · rename_i r hr
            rw [hr] at h
            simp only at h
            split
            · rename_i hl
              rw [if_pos hl] at h
              exact key (fun _ => rfl) (fun _ _ => key (fun _ => rfl) (fun _ _ => key (fun _ => rfl)
                (fun src _ => key (ih.1 _ _) (fun s1 _ => ih.2 _ _)))) h
            · rename_i hl
              rw [if_neg hl] at h
              exact ih.2 _ _ h
        · rename_i v hv hm
          refine ih.2 _ _ ?_
          rw [hm] at h
          split at h
          · rename_i hm'; cases hm'
          · rename_i hm'; cases hm'; exact absurd rfl (hv _)
          · exact h

theorem addSource_fuel (gf : GF w) (dbg : Bool) (src : DSource) (s : Dec) (n : Nat) :
    addSource gf dbg (s.fuel + n) src s = addSource gf dbg s.fuel src s := by
  induction n with
  | zero => rfl
  | succ n ih =>
    rw [← Nat.add_assoc, (add_scan_more gf dbg _).1, ih]
    rw [ih]; exact noFuel_addSource _ _ _ _

/-! ## Repairs used up, continued -/

theorem callbackOrdered_same' {s s' : Dec} {id : Nat} (h : s.callbackOrdered id = .ok s') : SameB s s' :=
  callbackOrdered_same h

theorem giveOutdated_same (l : List Nat) (s s' : Dec) (h : giveOutdated l s = .ok s') : SameB s s' := by
  induction l generalizing s with
  | nil => cases h; exact SameB.refl _
  | cons k t ih =>
    unfold giveOutdated at h
    rw [bind_ok_iff] at h
    obtain ⟨s1, h1, h⟩ := h
    have e1 := callbackOrdered_same h1
    have e2 := ih _ h
    exact e1.trans ⟨e2.repairs, e2.missing, e2.dec⟩

theorem length_erase_le {V : Type} (m : OMap V) (k : Nat) : (m.erase k).length ≤ m.length := by
  have := (keys_erase_sublist m k).length_le
  rwa [len_keys, len_keys] at this

theorem dropRepairs_uses (dbg : Bool) (id : Nat) (l : OMap DRepair) (s s' : Dec)
    (h : dropRepairs dbg id l s = .ok s') : s'.repairs.length ≤ s.repairs.length ∧ (s'.nbDecoded + s'.nbFailed + s'.nbUseless) = (s.nbDecoded + s.nbFailed + s.nbUseless) := by
  induction l generalizing s with
  | nil => cases h; exact ⟨Nat.le_refl _, rfl⟩
  | cons p t ih =>
    obtain ⟨rid, r⟩ := p
    unfold dropRepairs at h
    rw [bind_ok_iff] at h
    obtain ⟨_, _, h⟩ := h
    split at h
    · cases h
    · split at h
      · rw [bind_ok_iff] at h
        obtain ⟨_, _, h⟩ := h
        rw [bind_ok_iff] at h
        obtain ⟨m, _, h⟩ := h
        obtain ⟨a, b⟩ := ih _ h
        exact ⟨Nat.le_trans a (length_erase_le _ _), b⟩
      · exact ih _ h

theorem dropOutdated_uses {dbg : Bool} {id : Nat} {s s' : Dec} (h : s.dropOutdated dbg id = .ok s') :
    s'.repairs.length ≤ s.repairs.length ∧ (s'.nbDecoded + s'.nbFailed + s'.nbUseless) = (s.nbDecoded + s.nbFailed + s.nbUseless) := by
  unfold Dec.dropOutdated at h
  simp only at h
  rw [bind_ok_iff] at h
  obtain ⟨s1, h1, h⟩ := h
  rw [bind_ok_iff] at h
  obtain ⟨s2, h2, h⟩ := h
  cases h
  obtain ⟨a, b⟩ := dropRepairs_uses _ _ _ _ _ h1
  simp only at a b
  have e2 : SameB s1 s2 := by
    unfold Dec.giveAllOutdated at h2
    split at h2
    · rw [bind_ok_iff] at h2
      obtain ⟨s3, h3, h2⟩ := h2
      have e3 := giveOutdated_same _ _ _ h3
      have e4 := flush_same h2
      exact e3.trans ⟨e4.repairs, e4.missing, e4.dec⟩
    · cases h2; exact SameB.refl _
  simp only
  rw [e2.repairs, e2.dec]
  exact ⟨a, b⟩

theorem giveDecoded_same {dbg : Bool} {src : DSource} {s s' : Dec} (h : s.giveDecoded dbg src = .ok s') :
    SameB s s' := by
  unfold Dec.giveDecoded at h
  split at h
  · cases h; exact ⟨rfl, rfl, rfl⟩
  · split at h
    · have := flush_same h
      exact ⟨this.repairs, this.missing, this.dec⟩
    · cases h; exact ⟨rfl, rfl, rfl⟩

theorem insertDecoded_same {dbg : Bool} {src : DSource} {s s' : Dec} (h : s.insertDecoded dbg src = .ok s') :
    SameB s s' := by
  unfold Dec.insertDecoded at h
  rw [bind_ok_iff] at h
  obtain ⟨_, _, h⟩ := h
  simp only at h
  split at h
  · cases h
  · have := giveDecoded_same h
    exact ⟨this.repairs, this.missing, this.dec⟩

theorem decodeLoop_same (gf : GF w) (dbg : Bool) (inv : Mat w) (reps : List DRepair) (l : List Nat) (col : Nat)
    (s s' : Dec) (h : decodeLoop gf dbg inv reps col l s = .ok s') : SameB s s' := by
  induction l generalizing col s with
  | nil => unfold decodeLoop at h; cases h; exact SameB.refl _
  | cons x t ih =>
    unfold decodeLoop at h
    rw [bind_ok_iff] at h
    obtain ⟨_, _, h⟩ := h
    rw [bind_ok_iff] at h
    obtain ⟨s1, h1, h⟩ := h
    exact (insertDecoded_same h1).trans (ih _ _ h)

theorem fullDecode_uses {gf : GF w} {dbg : Bool} {s s' : Dec} (h : s.fullDecode gf dbg = .ok s') :
    (s'.nbDecoded + s'.nbFailed + s'.nbUseless) + s'.repairs.length ≤ (s.nbDecoded + s.nbFailed + s.nbUseless) + s.repairs.length := by
  unfold Dec.fullDecode at h
  split at h
  · cases h; exact Nat.le_refl _
  split at h
  · cases h; exact Nat.le_refl _
  rw [bind_ok_iff] at h
  obtain ⟨_, _, h⟩ := h
  rw [bind_ok_iff] at h
  obtain ⟨_, _, h⟩ := h
  rw [bind_ok_iff] at h
  obtain ⟨_, he, h⟩ := h
  split at h
  · split at h
    · cases h
    · rename_i rid r hr
      rw [bind_ok_iff] at h
      obtain ⟨_, _, h⟩ := h
      cases h
      have hl : (s.repairs.erase rid).length + 1 ≤ s.repairs.length := by
        cases hg : s.repairs.get? rid with
        | some v => exact length_erase_lt hg
        | none => exact absurd (List.mem_map.2 ⟨_, List.mem_of_getElem? hr, rfl⟩) ((get?_eq_none_iff _ _).1 hg)
      simp only
      omega
  · simp only at h
    rw [bind_ok_iff] at h
    obtain ⟨s1, h1, h⟩ := h
    cases h
    have e1 := (decodeLoop_same _ _ _ _ _ _ _ _ h1).dec
    have e2 : s.missing.length = s.repairs.length := by
      unfold ensure at he
      split at he
      · rename_i hb; simpa using hb
      · cases he
    simp only [List.length_nil]
    omega

theorem onSource_uses {gf : GF w} {dbg : Bool} {s s' : Dec} {src : DSource} (h : s.onSource gf dbg src = .ok s') :
    (s'.nbDecoded + s'.nbFailed + s'.nbUseless) + s'.repairs.length ≤ (s.nbDecoded + s.nbFailed + s.nbUseless) + s.repairs.length := by
  unfold Dec.onSource at h
  split at h
  · cases h; exact Nat.le_refl _
  · split at h
    · cases h; exact Nat.le_refl _
    · rw [bind_ok_iff] at h
      obtain ⟨s1, e1, h⟩ := h
      have a := ((add_scan_uses gf dbg _).1 _ _ _ e1).reps
      have b := fullDecode_uses h
      omega

theorem length_emplace_le {V : Type} (m : OMap V) (k : Nat) (v : V) : (m.emplace k v).length ≤ m.length + 1 := by
  induction m with
  | nil => simp [OMap.emplace]
  | cons p t ih =>
    obtain ⟨a, b⟩ := p
    unfold OMap.emplace
    split
    · simp
    · split
      · simp
      · simp only [List.length_cons]; omega

theorem onRepair_uses {gf : GF w} {dbg : Bool} {s s' : Dec} {r : DRepair} (h : s.onRepair gf dbg r = .ok s') :
    (s'.nbDecoded + s'.nbFailed + s'.nbUseless) + s'.repairs.length ≤ (s.nbDecoded + s.nbFailed + s.nbUseless) + s.repairs.length + 1 := by
  unfold Dec.onRepair at h
  rw [bind_ok_iff] at h
  obtain ⟨_, _, h⟩ := h
  split at h
  · split at h
    · cases h; omega
    split at h
    · cases h; omega
    rw [bind_ok_iff] at h
    obtain ⟨s1, h1, h⟩ := h
    obtain ⟨a1, b1⟩ := dropOutdated_uses h1
    split at h
    · cases h; simp only; omega
    rw [bind_ok_iff] at h
    obtain ⟨_, _, h⟩ := h
    rw [bind_ok_iff] at h
    obtain ⟨⟨r', m⟩, _, h⟩ := h
    simp only at h
    rw [bind_ok_iff] at h
    obtain ⟨_, _, h⟩ := h
    have l1 := length_emplace_le s1.repairs r'.id r'
    split at h
    · rw [bind_ok_iff] at h
      obtain ⟨src, _, h⟩ := h
      have e2 := ((add_scan_uses gf dbg _).1 _ _ _ h).reps
      have l2 := @length_erase_lt DRepair (s1.repairs.emplace r'.id r') r'.id
      simp only at e2
      have l3 : ((s1.repairs.emplace r'.id r').erase r'.id).length + 1 ≤ (s1.repairs.emplace r'.id r').length := by
        cases hg : (s1.repairs.emplace r'.id r').get? r'.id with
        | some v => exact l2 hg
        | none => exact absurd ((mem_keys_emplace _ _ _ _).2 (Or.inl rfl)) ((get?_eq_none_iff _ _).1 hg)
      omega
    · have e2 := fullDecode_uses h
      simp only at e2
      omega
  · cases h

end Netcode
