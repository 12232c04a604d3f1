import Verif.Model.Basic
import Mathlib.Data.List.Basic
import Mathlib.Data.List.Sort

/-!
# Lemmas on ordered maps and sets
-/

namespace Netcode

/-- The keys are strictly increasing. -/
def OMap.SortedKeys {V : Type} (m : OMap V) : Prop := (m.map (·.1)).Pairwise (· < ·)

namespace OMap
variable {V : Type}

@[simp] theorem keys_eq (m : OMap V) : m.keys = m.map (·.1) := rfl

theorem has_iff (m : OMap V) (k : Nat) : m.has k = true ↔ k ∈ m.map (·.1) := by
  simp [has]

theorem has_false_iff (m : OMap V) (k : Nat) : m.has k = false ↔ k ∉ m.map (·.1) := by
  rw [← has_iff]; simp

@[simp] theorem get?_nil (k : Nat) : OMap.get? ([] : OMap V) k = none := rfl

theorem get?_cons (p : Nat × V) (t : OMap V) (k : Nat) :
    OMap.get? (p :: t) k = if p.1 = k then some p.2 else OMap.get? t k := by
  unfold get?
  by_cases h : p.1 = k <;> simp [List.find?_cons, h]

theorem get?_eq_none_iff (m : OMap V) (k : Nat) : m.get? k = none ↔ k ∉ m.map (·.1) := by
  induction m with
  | nil => simp
  | cons p t ih =>
    rw [get?_cons]
    by_cases h : p.1 = k
    · simp [h]
    · rw [if_neg h, ih, List.map_cons, List.mem_cons, not_or]
      exact ⟨fun x => ⟨fun y => h y.symm, x⟩, fun x => x.2⟩

theorem get?_isSome_iff (m : OMap V) (k : Nat) : (∃ v, m.get? k = some v) ↔ k ∈ m.map (·.1) := by
  rw [← not_iff_not, ← get?_eq_none_iff]
  cases m.get? k <;> simp

theorem mem_of_get? {m : OMap V} {k : Nat} {v : V} (h : m.get? k = some v) : (k, v) ∈ m := by
  induction m with
  | nil => simp at h
  | cons p t ih =>
    rw [get?_cons] at h
    split at h
    · rename_i hp
      simp only [Option.some.injEq] at h
      subst hp; subst h; simp
    · exact List.mem_cons_of_mem _ (ih h)

theorem sorted_tail {p : Nat × V} {t : OMap V} (h : SortedKeys (p :: t)) : SortedKeys t := by
  unfold SortedKeys at *
  rw [List.map_cons, List.pairwise_cons] at h
  exact h.2

theorem sorted_head {p : Nat × V} {t : OMap V} (h : SortedKeys (p :: t)) : ∀ q ∈ t, p.1 < q.1 := by
  unfold SortedKeys at *
  rw [List.map_cons, List.pairwise_cons] at h
  intro q hq
  exact h.1 q.1 (List.mem_map_of_mem hq)

theorem get?_of_mem {m : OMap V} (hs : SortedKeys m) {k : Nat} {v : V} (h : (k, v) ∈ m) :
    m.get? k = some v := by
  induction m with
  | nil => simp at h
  | cons p t ih =>
    rw [get?_cons]
    rcases List.mem_cons.1 h with rfl | h
    · simp
    · have := sorted_head hs _ h
      rw [if_neg (by simp only at this; omega)]
      exact ih (sorted_tail hs) h

theorem get?_iff {m : OMap V} (hs : SortedKeys m) (k : Nat) (v : V) :
    m.get? k = some v ↔ (k, v) ∈ m := ⟨mem_of_get?, get?_of_mem hs⟩

/-! ### emplace -/

theorem emplace_of_mem (m : OMap V) (hs : SortedKeys m) (k : Nat) (v : V) (h : k ∈ m.map (·.1)) :
    m.emplace k v = m := by
  induction m with
  | nil => simp at h
  | cons p t ih =>
    rw [List.map_cons, List.mem_cons] at h
    unfold emplace
    rcases h with h | h
    · rw [if_neg (by omega), if_pos h]
    · obtain ⟨q, hq, rfl⟩ := List.mem_map.1 h
      have := sorted_head hs q hq
      rw [if_neg (by omega), if_neg (by omega), ih (sorted_tail hs) h]

theorem mem_emplace (m : OMap V) (k : Nat) (v : V) (h : k ∉ m.map (·.1)) (q : Nat × V) :
    q ∈ m.emplace k v ↔ q = (k, v) ∨ q ∈ m := by
  induction m with
  | nil => simp [emplace]
  | cons p t ih =>
    rw [List.map_cons, List.mem_cons, not_or] at h
    unfold emplace
    split
    · simp
    · rw [if_neg h.1, List.mem_cons, ih h.2, List.mem_cons]; tauto

theorem mem_keys_emplace (m : OMap V) (k : Nat) (v : V) (x : Nat) :
    x ∈ (m.emplace k v).map (·.1) ↔ x = k ∨ x ∈ m.map (·.1) := by
  induction m with
  | nil => simp [emplace]
  | cons p t ih =>
    unfold emplace
    split
    · simp
    · split
      · rename_i h; simp [h]
      · simp only [List.map_cons, List.mem_cons, ih]; tauto

theorem sorted_emplace (m : OMap V) (hs : SortedKeys m) (k : Nat) (v : V) : SortedKeys (m.emplace k v) := by
  induction m with
  | nil => simp [emplace, SortedKeys]
  | cons p t ih =>
    unfold emplace
    have ht := sorted_tail hs
    have hh := sorted_head hs
    split
    · rename_i h
      unfold SortedKeys
      rw [List.map_cons, List.pairwise_cons]
      refine ⟨?_, hs⟩
      intro x hx
      rw [List.map_cons, List.mem_cons] at hx
      rcases hx with rfl | hx
      · exact h
      · obtain ⟨q, hq, rfl⟩ := List.mem_map.1 hx
        have := hh q hq
        simp only; omega
    · split
      · exact hs
      · rename_i h1 h2
        unfold SortedKeys
        rw [List.map_cons, List.pairwise_cons]
        refine ⟨?_, ih ht⟩
        intro x hx
        rw [mem_keys_emplace] at hx
        rcases hx with rfl | hx
        · omega
        · obtain ⟨q, hq, rfl⟩ := List.mem_map.1 hx
          exact hh q hq

theorem length_emplace (m : OMap V) (k : Nat) (v : V) (h : k ∉ m.map (·.1)) :
    (m.emplace k v).length = m.length + 1 := by
  induction m with
  | nil => simp [emplace]
  | cons p t ih =>
    rw [List.map_cons, List.mem_cons, not_or] at h
    unfold emplace
    split
    · simp
    · rw [if_neg h.1, List.length_cons, ih h.2, List.length_cons]

theorem get?_emplace (m : OMap V) (hs : SortedKeys m) (k : Nat) (v : V) (h : k ∉ m.map (·.1)) (x : Nat) :
    (m.emplace k v).get? x = if x = k then some v else m.get? x := by
  have hs' := sorted_emplace m hs k v
  split
  · rename_i hx; subst hx
    exact get?_of_mem hs' ((mem_emplace m x v h _).2 (Or.inl rfl))
  · rename_i hx
    cases hm : m.get? x with
    | none =>
      rw [get?_eq_none_iff] at hm ⊢
      rw [mem_keys_emplace]; tauto
    | some u => exact get?_of_mem hs' ((mem_emplace m k v h _).2 (Or.inr (mem_of_get? hm)))

theorem emplace_append (m : OMap V) (k : Nat) (v : V) (h : ∀ x ∈ m.map (·.1), x < k) :
    m.emplace k v = m ++ [(k, v)] := by
  induction m with
  | nil => rfl
  | cons p t ih =>
    have hp := h p.1 (by simp)
    unfold emplace
    rw [if_neg (by omega), if_neg (by omega), ih (fun x hx => h x (by simp at hx ⊢; tauto))]; rfl

/-! ### modify -/

@[simp] theorem keys_modify (m : OMap V) (k : Nat) (f : V → V) : (m.modify k f).map (·.1) = m.map (·.1) := by
  unfold modify
  rw [List.map_map]
  congr 1
  funext p
  simp only [Function.comp]
  split <;> rfl

theorem sorted_modify {m : OMap V} (hs : SortedKeys m) (k : Nat) (f : V → V) : SortedKeys (m.modify k f) := by
  unfold SortedKeys; rw [keys_modify]; exact hs

@[simp] theorem length_modify (m : OMap V) (k : Nat) (f : V → V) : (m.modify k f).length = m.length := by
  simp [modify]

theorem get?_modify (m : OMap V) (k : Nat) (f : V → V) (x : Nat) :
    (m.modify k f).get? x = if x = k then (m.get? x).map f else m.get? x := by
  induction m with
  | nil => simp [modify]
  | cons p t ih =>
    have : OMap.modify (p :: t) k f = (if p.1 = k then (p.1, f p.2) else p) :: OMap.modify t k f := rfl
    rw [this, get?_cons, get?_cons, ih]
    by_cases h1 : p.1 = k
    · rw [if_pos h1]
      by_cases h2 : p.1 = x
      · have h3 : x = k := by omega
        simp [h2, h3]
      · have h3 : x ≠ k := by omega
        simp [h2, h3]
    · rw [if_neg h1]
      by_cases h2 : p.1 = x
      · have h3 : x ≠ k := by omega
        simp [h2, h3]
      · simp [h2]

/-! ### erase -/

theorem keys_erase (m : OMap V) (k : Nat) : (m.erase k).map (·.1) = (m.map (·.1)).filter (· != k) := by
  unfold erase
  rw [List.filter_map]; rfl

theorem mem_keys_erase (m : OMap V) (k x : Nat) : x ∈ (m.erase k).map (·.1) ↔ x ∈ m.map (·.1) ∧ x ≠ k := by
  rw [keys_erase, List.mem_filter]; simp

theorem sorted_erase {m : OMap V} (hs : SortedKeys m) (k : Nat) : SortedKeys (m.erase k) := by
  unfold SortedKeys; rw [keys_erase]; exact List.Pairwise.filter _ hs

theorem mem_erase (m : OMap V) (k : Nat) (q : Nat × V) : q ∈ m.erase k ↔ q ∈ m ∧ q.1 ≠ k := by
  simp [erase]

theorem get?_erase (m : OMap V) (k x : Nat) :
    (m.erase k).get? x = if x = k then none else m.get? x := by
  induction m with
  | nil => simp [erase]
  | cons p t ih =>
    have : OMap.erase (p :: t) k = if p.1 = k then OMap.erase t k else p :: OMap.erase t k := by
      unfold erase; rw [List.filter_cons]; by_cases h : p.1 = k <;> simp [h]
    rw [this]
    by_cases h1 : p.1 = k
    · rw [if_pos h1, ih, get?_cons]
      by_cases hx : x = k
      · simp [hx]
      · rw [if_neg hx, if_neg hx, if_neg (by omega)]
    · rw [if_neg h1, get?_cons, get?_cons, ih]
      by_cases hx : x = k
      · subst hx; simp [h1]
      · simp [hx]

theorem erase_of_not_mem (m : OMap V) (k : Nat) (h : k ∉ m.map (·.1)) : m.erase k = m := by
  unfold erase
  rw [List.filter_eq_self]
  intro a ha
  have : a.1 ≠ k := fun e => h (e ▸ List.mem_map_of_mem ha)
  simpa using this

theorem length_erase_of_mem (m : OMap V) (hs : SortedKeys m) (k : Nat) (h : k ∈ m.map (·.1)) :
    (m.erase k).length + 1 = m.length := by
  induction m with
  | nil => simp at h
  | cons p t ih =>
    have : OMap.erase (p :: t) k = if p.1 = k then OMap.erase t k else p :: OMap.erase t k := by
      unfold erase; rw [List.filter_cons]; by_cases h : p.1 = k <;> simp [h]
    rw [this]
    rw [List.map_cons, List.mem_cons] at h
    have hh := sorted_head hs
    split
    · rename_i hp
      rw [erase_of_not_mem]
      · simp
      · intro hc
        obtain ⟨q, hq, hq2⟩ := List.mem_map.1 hc
        have := hh q hq
        omega
    · rename_i hp
      have h' : k ∈ t.map (·.1) := by rcases h with h | h; exact absurd h.symm hp; exact h
      rw [List.length_cons, List.length_cons, ih (sorted_tail hs) h']

/-! ### eraseBelow -/

theorem keys_eraseBelow (m : OMap V) (k : Nat) :
    (m.eraseBelow k).map (·.1) = (m.map (·.1)).filter (fun x => decide (k ≤ x)) := by
  unfold eraseBelow
  rw [List.filter_map]; rfl

theorem mem_keys_eraseBelow (m : OMap V) (k x : Nat) :
    x ∈ (m.eraseBelow k).map (·.1) ↔ x ∈ m.map (·.1) ∧ k ≤ x := by
  rw [keys_eraseBelow, List.mem_filter]; simp

theorem sorted_eraseBelow {m : OMap V} (hs : SortedKeys m) (k : Nat) : SortedKeys (m.eraseBelow k) := by
  unfold SortedKeys; rw [keys_eraseBelow]; exact List.Pairwise.filter _ hs

theorem get?_eraseBelow (m : OMap V) (k x : Nat) :
    (m.eraseBelow k).get? x = if k ≤ x then m.get? x else none := by
  induction m with
  | nil => simp [eraseBelow]
  | cons p t ih =>
    have : OMap.eraseBelow (p :: t) k = if k ≤ p.1 then p :: OMap.eraseBelow t k else OMap.eraseBelow t k := by
      unfold eraseBelow; rw [List.filter_cons]; simp only [decide_eq_true_eq]
    rw [this]
    by_cases h1 : k ≤ p.1
    · rw [if_pos h1, get?_cons, get?_cons, ih]
      by_cases hx : p.1 = x
      · subst hx; simp [h1]
      · simp [hx]
    · rw [if_neg h1, ih, get?_cons]
      by_cases hx : p.1 = x
      · subst hx; simp [h1]
      · simp [hx]

theorem eraseBelow_self (m : OMap V) (k : Nat) (h : ∀ x ∈ m.map (·.1), k ≤ x) : m.eraseBelow k = m := by
  unfold eraseBelow
  rw [List.filter_eq_self]
  intro a ha
  simpa using h a.1 (List.mem_map_of_mem ha)

/-! ### next? -/

theorem next?_mem {m : OMap V} {k x : Nat} (h : m.next? k = some x) : x ∈ m.map (·.1) ∧ k < x := by
  unfold next? at h
  rw [Option.map_eq_some_iff] at h
  obtain ⟨q, hq, rfl⟩ := h
  exact ⟨List.mem_map_of_mem (List.mem_of_find?_eq_some hq), by simpa using List.find?_some hq⟩

theorem next?_nil (k : Nat) : OMap.next? ([] : OMap V) k = none := rfl

theorem head?_mem {m : OMap V} {x : Nat} (h : m.keys.head? = some x) : x ∈ m.map (·.1) := by
  simpa using List.mem_of_head? h

theorem nodup_keys {m : OMap V} (hs : SortedKeys m) : (m.map (·.1)).Nodup :=
  List.Pairwise.imp (fun h => Nat.ne_of_lt h) hs

theorem ext_get? {m n : OMap V} (hm : SortedKeys m) (hn : SortedKeys n) (h : ∀ k, m.get? k = n.get? k) :
    m = n := by
  induction m generalizing n with
  | nil =>
    cases n with
    | nil => rfl
    | cons q t => have := h q.1; rw [get?_cons] at this; simp at this
  | cons p t ih =>
    cases n with
    | nil => have := h p.1; rw [get?_cons] at this; simp at this
    | cons q u =>
      have hp := h p.1
      have hq := h q.1
      rw [get?_cons, get?_cons] at hp hq
      simp only [if_true] at hp hq
      have hpq : p.1 = q.1 := by
        by_contra hne
        rw [if_neg (fun e => hne e.symm)] at hp
        rw [if_neg hne] at hq
        have h1 := sorted_head hn _ (mem_of_get? hp.symm)
        have h2 := sorted_head hm _ (mem_of_get? hq)
        simp only at h1 h2; omega
      rw [if_pos hpq.symm] at hp
      have : p = q := Prod.ext hpq (Option.some.inj hp)
      subst this
      congr 1
      refine ih (sorted_tail hm) (sorted_tail hn) (fun k => ?_)
      have hk := h k
      rw [get?_cons, get?_cons] at hk
      by_cases he : p.1 = k
      · have e1 : OMap.get? t k = none := by
          rw [get?_eq_none_iff]; intro hc
          obtain ⟨r, hr, hr2⟩ := List.mem_map.1 hc
          have := sorted_head hm r hr; omega
        have e2 : OMap.get? u k = none := by
          rw [get?_eq_none_iff]; intro hc
          obtain ⟨r, hr, hr2⟩ := List.mem_map.1 hc
          have := sorted_head hn r hr; omega
        rw [e1, e2]
      · rwa [if_neg he, if_neg he] at hk

end OMap

/-! ## Sets -/

theorem mem_setInsert (l : List Nat) (k x : Nat) : x ∈ setInsert l k ↔ x = k ∨ x ∈ l := by
  induction l with
  | nil => simp [setInsert]
  | cons y t ih =>
    unfold setInsert
    split
    · simp
    · split
      · rename_i h; subst h; simp
      · simp only [List.mem_cons, ih]; tauto

theorem sorted_setInsert (l : List Nat) (hs : l.Pairwise (· < ·)) (k : Nat) :
    (setInsert l k).Pairwise (· < ·) := by
  induction l with
  | nil => simp [setInsert]
  | cons y t ih =>
    rw [List.pairwise_cons] at hs
    unfold setInsert
    split
    · rename_i h
      rw [List.pairwise_cons, List.pairwise_cons]
      refine ⟨?_, hs⟩
      intro x hx
      rcases List.mem_cons.1 hx with rfl | hx
      · exact h
      · have := hs.1 x hx; omega
    · split
      · exact List.pairwise_cons.2 hs
      · rw [List.pairwise_cons]
        refine ⟨?_, ih hs.2⟩
        intro x hx
        rw [mem_setInsert] at hx
        rcases hx with rfl | hx
        · omega
        · exact hs.1 x hx

theorem sorted_ext {l m : List Nat} (hl : l.Pairwise (· < ·)) (hm : m.Pairwise (· < ·))
    (h : ∀ x, x ∈ l ↔ x ∈ m) : l = m := by
  apply List.Perm.eq_of_pairwise (le := (· < ·)) ?_ hl hm
  · rw [List.perm_ext_iff_of_nodup (hl.imp (fun h => Nat.ne_of_lt h)) (hm.imp (fun h => Nat.ne_of_lt h))]
    exact h
  · intro a b _ _ h1 h2; omega

theorem sorted_erase' {l : List Nat} (h : l.Pairwise (· < ·)) (k : Nat) : (l.erase k).Pairwise (· < ·) :=
  List.Pairwise.sublist List.erase_sublist h

theorem mem_erase_sorted {l : List Nat} (h : l.Pairwise (· < ·)) (k x : Nat) :
    x ∈ l.erase k ↔ x ∈ l ∧ x ≠ k := by
  rw [List.Nodup.mem_erase_iff (h.imp (fun h => Nat.ne_of_lt h))]; tauto

theorem length_erase_sorted {l : List Nat} (k : Nat) (hk : k ∈ l) :
    (l.erase k).length + 1 = l.length := by
  rw [List.length_erase_of_mem hk]
  have := List.length_pos_of_mem hk
  omega

end Netcode
