import Verif.Proofs.DecHist
import Verif.Proofs.DecMode
import Verif.Proofs.EncHist

/-!
# Nothing outdated is kept

`Low l o s`: the decoder `s` only refers to sources from `l` on, and `o` is the start of the window it knows.
-/

namespace Netcode

open OMap

variable {w : Nat}

structure Low (l : Nat) (o : Option Nat) (s : Dec) : Prop where
  last : s.lastId = o
  src : ∀ x ∈ s.sources.keys, l ≤ x
  mis : ∀ x ∈ s.missing.keys, l ≤ x
  rep : ∀ p ∈ s.repairs, ∀ x ∈ p.2.ids, l ≤ x
  sorted : ∀ p ∈ s.repairs, Sorted p.2.ids
  keys : SortedKeys s.repairs

theorem Low.same {l : Nat} {o : Option Nat} {s s' : Dec} (h : Low l o s) (c : SameC s s') : Low l o s' :=
  ⟨by rw [c.lastId]; exact h.last, by rw [c.sources]; exact h.src, by rw [c.missing]; exact h.mis,
    by rw [c.repairs]; exact h.rep, by rw [c.repairs]; exact h.sorted, by rw [c.repairs]; exact h.keys⟩

theorem mem_modify_or {V : Type} {m : OMap V} {k : Nat} {f : V → V} {p : Nat × V} (h : p ∈ m.modify k f) :
    p ∈ m ∨ ∃ v, (k, v) ∈ m ∧ p = (k, f v) := by
  unfold OMap.modify at h
  obtain ⟨q, hq, rfl⟩ := List.mem_map.1 h
  obtain ⟨a, v⟩ := q
  by_cases ha : a = k
  · subst ha; exact .inr ⟨v, hq, by simp⟩
  · refine .inl ?_
    simpa [ha] using hq

theorem keys_modify' {V : Type} (m : OMap V) (k : Nat) (f : V → V) : (m.modify k f).keys = m.keys := by
  unfold OMap.modify OMap.keys
  rw [List.map_map]
  apply List.map_congr_left
  intro p _
  by_cases hp : p.1 = k <;> simp [hp]

theorem mem_emplace' {V : Type} {m : OMap V} {k : Nat} {v : V} {p : Nat × V} (h : p ∈ m.emplace k v) :
    p ∈ m ∨ p = (k, v) := by
  induction m with
  | nil => simp only [OMap.emplace, List.mem_singleton] at h; exact .inr h
  | cons q t ih =>
    obtain ⟨a, b⟩ := q
    unfold OMap.emplace at h
    split at h
    · rcases List.mem_cons.1 h with h | h
      · exact .inr h
      · exact .inl h
    · split at h
      · exact .inl h
      · rcases List.mem_cons.1 h with h | h
        · exact .inl (by rw [h]; exact List.mem_cons_self)
        · rcases ih h with h | h
          · exact .inl (List.mem_cons_of_mem _ h)
          · exact .inr h

theorem removeData_ids {gf : GF w} {dbg : Bool} {src : DSource} {r r' : DRepair}
    (h : removeData gf dbg src r = .ok r') : r'.ids = r.ids := by
  unfold removeData at h
  simp only [bind_ok_iff, pure_ok_iff] at h
  obtain ⟨_, _, _, _, _, _, rfl⟩ := h
  rfl

theorem removeFromRepair_ids {gf : GF w} {dbg : Bool} {src : DSource} {r r' : DRepair}
    (h : removeFromRepair gf dbg src r = .ok r') : r'.ids = r.ids.erase src.id := by
  unfold removeFromRepair at h
  simp only [bind_ok_iff, pure_ok_iff] at h
  obtain ⟨r1, h1, _, _, _, _, rfl⟩ := h
  simp only [removeData_ids h1]

theorem removeFromAll_low {l : Nat} {o : Option Nat} (gf : GF w) (dbg : Bool) (src : DSource) (links : List Nat) (s s' : Dec)
    (h : removeFromAll gf dbg src links s = .ok s') (hl : Low l o s) : Low l o s' := by
  induction links generalizing s with
  | nil => cases h; exact hl
  | cons rid t ih =>
    unfold removeFromAll at h
    split at h
    · cases h
    · next r hr =>
      rw [bind_ok_iff] at h
      obtain ⟨r', h1, h⟩ := h
      have e := removeFromRepair_ids h1
      have hm := mem_of_get? hr
      refine ih _ h ⟨hl.last, hl.src, hl.mis, ?_, ?_, (by show SortedKeys (s.repairs.modify rid fun _ => r'); exact sorted_modify hl.keys rid (fun _ => r'))⟩
      · intro p hp x hx
        rcases mem_modify_or (show p ∈ s.repairs.modify rid (fun _ => r') from hp) with hp | ⟨v, _, rfl⟩
        · exact hl.rep p hp x hx
        · rw [e] at hx
          exact hl.rep _ hm x (List.mem_of_mem_erase hx)
      · intro p hp
        rcases mem_modify_or (show p ∈ s.repairs.modify rid (fun _ => r') from hp) with hp | ⟨v, _, rfl⟩
        · exact hl.sorted p hp
        · show Sorted r'.ids
          rw [e]; exact sorted_erase' (hl.sorted _ hm) _

theorem addSourceHead_low {l : Nat} {o : Option Nat} {gf : GF w} {dbg : Bool} {src : DSource} {s s' : Dec}
    (h : addSourceHead gf dbg src s = .ok s') (hl : Low l o s) : Low l o s' := by
  unfold addSourceHead at h
  rw [bind_ok_iff] at h
  obtain ⟨s1, h1, h⟩ := h
  have l1 := hl.same (giveNew_C h1)
  split at h
  · cases h; exact l1
  · rw [bind_ok_iff] at h
    obtain ⟨s2, h2, h⟩ := h
    cases h
    have l2 := removeFromAll_low _ _ _ _ _ _ h2 l1
    exact ⟨l2.last, l2.src, fun x hx => l2.mis x ((mem_keys_erase _ _ _).1 hx).1, l2.rep, l2.sorted, l2.keys⟩

theorem addSourceTail_low {l : Nat} {o : Option Nat} {dbg : Bool} {src : DSource} {s s' : Dec}
    (h : addSourceTail dbg src s = .ok s') (hl : Low l o s) (hs : l ≤ src.id) : Low l o s' := by
  unfold addSourceTail at h
  rw [bind_ok_iff] at h
  obtain ⟨_, _, h⟩ := h
  simp only at h
  have hsrc : ∀ x ∈ (s.sources.emplace src.id src).keys, l ≤ x := by
    intro x hx
    rcases (mem_keys_emplace _ _ _ _).1 hx with hx | hx
    · rw [hx]; exact hs
    · exact hl.src x hx
  split at h <;> (cases h; exact ⟨hl.last, hsrc, hl.mis, hl.rep, hl.sorted, hl.keys⟩)

theorem createSource_id {gf : GF w} {dbg : Bool} {r : DRepair} {src : DSource} (h : createSource gf dbg r = .ok src) :
    src.id ∈ r.ids := by
  unfold createSource at h
  rw [bind_ok_iff] at h
  obtain ⟨_, _, h⟩ := h
  split at h
  · cases h
  · next x t hx =>
    simp only [bind_ok_iff, pure_ok_iff] at h
    obtain ⟨_, _, rfl⟩ := h
    rw [hx]; exact List.mem_cons_self

theorem add_scan_low {l : Nat} {o : Option Nat} (gf : GF w) (dbg : Bool) (fuel : Nat) :
    (∀ src s s', addSource gf dbg fuel src s = .ok s' → l ≤ src.id → Low l o s → Low l o s') ∧
    (∀ k s s', scanMissing gf dbg fuel k s = .ok s' → Low l o s → Low l o s') := by
  induction fuel with
  | zero =>
    constructor
    · intro src s s' h; unfold addSource at h; cases h
    · intro k s s' h hl
      cases k with
      | none => unfold scanMissing at h; cases h; exact hl
      | some k => unfold scanMissing at h; cases h
  | succ fuel ih =>
    constructor
    · intro src s s' h hs hl
      unfold addSource at h
      rw [bind_ok_iff] at h
      obtain ⟨s1, h1, h⟩ := h
      rw [bind_ok_iff] at h
      obtain ⟨s2, h2, h⟩ := h
      exact addSourceTail_low h (ih.2 _ _ _ h2 (addSourceHead_low h1 hl)) hs
    · intro k s s' h hl
      cases k with
      | none => unfold scanMissing at h; cases h; exact hl
      | some k =>
        unfold scanMissing at h
        split at h
        · cases h
        · split at h
          · cases h
          · next r hr =>
            split at h
            · rw [bind_ok_iff] at h
              obtain ⟨_, _, h⟩ := h
              rw [bind_ok_iff] at h
              obtain ⟨_, _, h⟩ := h
              rw [bind_ok_iff] at h
              obtain ⟨src, hsrc, h⟩ := h
              simp only at h
              rw [bind_ok_iff] at h
              obtain ⟨s1, h1, h⟩ := h
              refine ih.2 _ _ _ h (ih.1 _ _ _ h1 (hl.rep _ (mem_of_get? hr) _ (createSource_id hsrc)) ?_)
              exact ⟨hl.last, hl.src, fun x hx => hl.mis x ((mem_keys_erase _ _ _).1 hx).1,
                fun p hp => hl.rep p ((mem_erase _ _ _).1 hp).1, fun p hp => hl.sorted p ((mem_erase _ _ _).1 hp).1,
        sorted_erase hl.keys _⟩
            · exact ih.2 _ _ _ h hl
        · exact ih.2 _ _ _ h hl

theorem insertDecoded_low {l : Nat} {o : Option Nat} {dbg : Bool} {src : DSource} {s s' : Dec}
    (h : s.insertDecoded dbg src = .ok s') (hl : Low l o s) (hs : l ≤ src.id) : Low l o s' := by
  unfold Dec.insertDecoded at h
  rw [bind_ok_iff] at h
  obtain ⟨_, _, h⟩ := h
  simp only at h
  split at h
  · cases h
  · refine Low.same ?_ (giveDecoded_C h)
    refine ⟨hl.last, fun x hx => ?_, hl.mis, hl.rep, hl.sorted, hl.keys⟩
    rcases (mem_keys_emplace _ _ _ _).1 hx with hx | hx
    · rw [hx]; exact hs
    · exact hl.src x hx

theorem decodeLoop_low {l : Nat} {o : Option Nat} (gf : GF w) (dbg : Bool) (inv : Mat w) (reps : List DRepair) (ids : List Nat)
    (col : Nat) (s s' : Dec) (h : decodeLoop gf dbg inv reps col ids s = .ok s') (hl : Low l o s) (hi : ∀ x ∈ ids, l ≤ x) :
    Low l o s' := by
  induction ids generalizing col s with
  | nil => unfold decodeLoop at h; cases h; exact hl
  | cons x t ih =>
    unfold decodeLoop at h
    rw [bind_ok_iff] at h
    obtain ⟨_, _, h⟩ := h
    rw [bind_ok_iff] at h
    obtain ⟨s1, h1, h⟩ := h
    exact ih _ _ h (insertDecoded_low h1 hl (hi x List.mem_cons_self)) fun y hy => hi y (List.mem_cons_of_mem _ hy)

theorem unlinkOrCreate_keys (rid : Nat) (ids : List Nat) (m : OMap (List Nat)) (x : Nat)
    (h : x ∈ (unlinkOrCreate rid ids m).keys) : x ∈ ids ∨ x ∈ m.keys := by
  induction ids generalizing m with
  | nil => exact .inr h
  | cons y t ih =>
    unfold unlinkOrCreate at h
    rcases ih _ h with h | h
    · exact .inl (List.mem_cons_of_mem _ h)
    · rw [keys_modify'] at h
      rcases (mem_keys_emplace _ _ _ _).1 h with h | h
      · rw [h]; exact .inl List.mem_cons_self
      · exact .inr h

theorem fullDecode_low {l : Nat} {o : Option Nat} {gf : GF w} {dbg : Bool} {s s' : Dec} (h : s.fullDecode gf dbg = .ok s')
    (hl : Low l o s) : Low l o s' := by
  unfold Dec.fullDecode at h
  split at h
  · cases h; exact hl
  split at h
  · cases h; exact hl
  rw [bind_ok_iff] at h
  obtain ⟨_, _, h⟩ := h
  rw [bind_ok_iff] at h
  obtain ⟨_, _, h⟩ := h
  rw [bind_ok_iff] at h
  obtain ⟨_, _, h⟩ := h
  split at h
  · split at h
    · cases h
    · next rid r hr =>
      rw [bind_ok_iff] at h
      obtain ⟨_, _, h⟩ := h
      cases h
      refine ⟨hl.last, hl.src, fun x hx => ?_, fun p hp => hl.rep p ((mem_erase _ _ _).1 hp).1,
        fun p hp => hl.sorted p ((mem_erase _ _ _).1 hp).1,
        sorted_erase hl.keys _⟩
      rcases unlinkOrCreate_keys _ _ _ _ hx with hx | hx
      · exact hl.rep _ (List.mem_of_getElem? hr) x hx
      · exact hl.mis x hx
  · simp only at h
    rw [bind_ok_iff] at h
    obtain ⟨s1, h1, h⟩ := h
    cases h
    have l1 := decodeLoop_low _ _ _ _ _ _ _ _ h1 hl hl.mis
    exact ⟨l1.last, l1.src, fun x hx => (by cases hx), fun p hp => (by cases hp), fun p hp => (by cases hp), List.Pairwise.nil⟩

theorem unlinkAll_keys (rid : Nat) (ids : List Nat) (m m' : OMap (List Nat)) (h : unlinkAll rid ids m = .ok m') :
    m'.keys = m.keys := by
  induction ids generalizing m with
  | nil => cases h; rfl
  | cons y t ih =>
    unfold unlinkAll at h
    split at h
    · rw [ih _ h, keys_modify']
    · cases h

/-- What `dropRepairs` leaves: repairs it has not looked at, or that start late enough. -/
theorem dropRepairs_inv (dbg : Bool) (id : Nat) (todo : OMap DRepair) (s s' : Dec) (h : dropRepairs dbg id todo s = .ok s') :
    s'.lastId = s.lastId ∧ s'.sources = s.sources ∧ s'.missing.keys = s.missing.keys ∧
    (∀ p ∈ s'.repairs, p ∈ s.repairs ∧
      ((∀ q ∈ todo, q.1 ≠ p.1) ∨ (∃ q ∈ todo, q.1 = p.1 ∧ ∃ x t, q.2.ids = x :: t ∧ id ≤ x))) ∧
    (SortedKeys s.repairs → SortedKeys s'.repairs) := by
  induction todo generalizing s with
  | nil => cases h; exact ⟨rfl, rfl, rfl, fun p hp => ⟨hp, .inl (by simp)⟩, fun h => h⟩
  | cons p t ih =>
    obtain ⟨rid, r⟩ := p
    unfold dropRepairs at h
    rw [bind_ok_iff] at h
    obtain ⟨_, _, h⟩ := h
    split at h
    · cases h
    · next x rest hx =>
      split at h
      · rw [bind_ok_iff] at h
        obtain ⟨_, _, h⟩ := h
        rw [bind_ok_iff] at h
        obtain ⟨m, hm, h⟩ := h
        obtain ⟨i1, i2, i3, i4, i5⟩ := ih _ h
        refine ⟨i1, i2, by rw [i3]; exact unlinkAll_keys _ _ _ _ hm, fun p hp => ?_, fun hk => i5 (sorted_erase hk _)⟩
        obtain ⟨k1, k2⟩ := i4 p hp
        have k3 := (mem_erase _ _ _).1 k1
        refine ⟨k3.1, ?_⟩
        rcases k2 with k2 | ⟨q, hq, k4, k5⟩
        · left
          intro q hq
          rcases List.mem_cons.1 hq with rfl | hq
          · exact fun hh => k3.2 hh.symm
          · exact k2 q hq
        · exact .inr ⟨q, List.mem_cons_of_mem _ hq, k4, k5⟩
      · next hle =>
        obtain ⟨i1, i2, i3, i4, i5⟩ := ih _ h
        refine ⟨i1, i2, i3, fun p hp => ?_, i5⟩
        obtain ⟨k1, k2⟩ := i4 p hp
        refine ⟨k1, ?_⟩
        rcases k2 with k2 | ⟨q, hq, k4, k5⟩
        · by_cases hc : rid = p.1
          · exact .inr ⟨_, List.mem_cons_self, hc, x, rest, hx, by omega⟩
          · left
            intro q hq
            rcases List.mem_cons.1 hq with rfl | hq
            · exact hc
            · exact k2 q hq
        · exact .inr ⟨q, List.mem_cons_of_mem _ hq, k4, k5⟩

theorem dropOutdated_low {l : Nat} {o : Option Nat} {dbg : Bool} {id : Nat} {s s' : Dec} (h : s.dropOutdated dbg id = .ok s')
    (hr : Low l o s) :
    Low id (some id) s' := by
  unfold Dec.dropOutdated at h
  simp only at h
  rw [bind_ok_iff] at h
  obtain ⟨s1, h1, h⟩ := h
  rw [bind_ok_iff] at h
  obtain ⟨s2, h2, h⟩ := h
  cases h
  obtain ⟨d1, d2, d3, d4, d5⟩ := dropRepairs_inv _ _ _ _ _ h1
  have c := giveAllOutdated_C h2
  refine ⟨by rw [c.lastId, d1], fun x hx => ((mem_keys_eraseBelow _ _ _).1 hx).2,
    fun x hx => ((mem_keys_eraseBelow _ _ _).1 hx).2, ?_, ?_, ?_⟩
  · intro p hp x hx
    rw [c.repairs] at hp
    obtain ⟨k1, k2⟩ := d4 p hp
    rcases k2 with k2 | ⟨q, hq, k4, y, t, k5, k6⟩
    · exact absurd rfl (k2 p k1)
    · have hqp : q = p := by
        have e1 := get?_of_mem hr.keys (show (q.1, q.2) ∈ s.repairs from hq)
        have e2 := get?_of_mem hr.keys (show (p.1, p.2) ∈ s.repairs from k1)
        rw [k4, e2] at e1
        cases q; cases p; cases e1; cases k4; rfl
      subst hqp
      have hs := hr.sorted q k1
      rw [k5] at hs hx
      rcases List.mem_cons.1 hx with rfl | hx
      · exact k6
      · exact Nat.le_of_lt (Nat.lt_of_le_of_lt k6 ((List.pairwise_cons.1 hs).1 x hx))
  · intro p hp
    rw [c.repairs] at hp
    exact hr.sorted p (d4 p hp).1
  · rw [show ({ s2 with sources := s2.sources.eraseBelow id, missing := s2.missing.eraseBelow id } : Dec).repairs = s2.repairs
      from rfl, c.repairs]
    exact d5 hr.keys

theorem onSource_low {l : Nat} {o : Option Nat} {gf : GF w} {dbg : Bool} {s s' : Dec} {src : DSource}
    (h : s.onSource gf dbg src = .ok s') (ho : l = o.getD 0) (hl : Low l o s) : Low l o s' := by
  unfold Dec.onSource at h
  split at h
  · cases h; exact hl
  · next hn =>
    split at h
    · cases h; exact hl
    · rw [bind_ok_iff] at h
      obtain ⟨s1, e1, h⟩ := h
      refine fullDecode_low h ((add_scan_low gf dbg _).1 _ _ _ e1 ?_ hl)
      rw [hl.last] at hn
      cases o with
      | none => rw [ho]; exact Nat.zero_le _
      | some b =>
        rw [ho]
        simp only [Option.any_some, decide_eq_true_eq] at hn
        exact Nat.le_of_not_lt hn

theorem linkFold_low {l : Nat} {gf : GF w} {dbg : Bool} {sources : OMap DSource} (ids : List Nat) (st st' : DRepair × OMap (List Nat))
    (h : ids.foldlM (linkStep gf dbg sources) st = .ok st') (h1 : ∀ x ∈ ids, l ≤ x) (h2 : ∀ x ∈ st.1.ids, l ≤ x)
    (h3 : Sorted st.1.ids) (h4 : ∀ x ∈ st.2.keys, l ≤ x) :
    (∀ x ∈ st'.1.ids, l ≤ x) ∧ Sorted st'.1.ids ∧ (∀ x ∈ st'.2.keys, l ≤ x) := by
  induction ids generalizing st with
  | nil => cases h; exact ⟨h2, h3, h4⟩
  | cons y t ih =>
    rw [List.foldlM_cons, bind_ok_iff] at h
    obtain ⟨st1, k1, h⟩ := h
    obtain ⟨r, m⟩ := st
    unfold linkStep at k1
    simp only at k1
    split at k1
    · rw [bind_ok_iff] at k1
      obtain ⟨r1, k2, k1⟩ := k1
      cases k1
      refine ih _ h (fun x hx => h1 x (List.mem_cons_of_mem _ hx)) ?_ ?_ h4
      · intro x hx
        simp only [removeData_ids k2] at hx
        exact h2 x (List.mem_of_mem_erase hx)
      · simp only [removeData_ids k2]
        exact sorted_erase' h3 _
    · split at k1
      · cases k1
        refine ih _ h (fun x hx => h1 x (List.mem_cons_of_mem _ hx)) h2 h3 ?_
        intro x hx
        rw [keys_modify'] at hx
        exact h4 x hx
      · cases k1
        refine ih _ h (fun x hx => h1 x (List.mem_cons_of_mem _ hx)) h2 h3 ?_
        intro x hx
        rcases (mem_keys_emplace _ _ _ _).1 hx with hx | hx
        · rw [hx]; exact h1 y List.mem_cons_self
        · exact h4 x hx

/-- A repair is ignored, or it is the new start of the window. -/
theorem onRepair_low {l : Nat} {o : Option Nat} {gf : GF w} {dbg : Bool} {s s' : Dec} {r : DRepair}
    (h : s.onRepair gf dbg r = .ok s') (hs : Sorted r.ids) (hl : Low l o s) :
    (((∃ x ∈ r.ids.getLast?, s.Outdated x) ∨ s.repairs.has r.id = true) ∧ s' = s) ∨
    ((∃ x ∈ r.ids.getLast?, ¬ s.Outdated x) ∧ s.repairs.has r.id = false ∧
      ∃ f, r.ids.head? = some f ∧ Low f (some f) s') := by
  unfold Dec.onRepair at h
  rw [bind_ok_iff] at h
  obtain ⟨_, _, h⟩ := h
  split at h
  · next lastIn firstIn e1 e2 =>
    have hout : s.lastId.any (fun l => decide (lastIn < l)) = true ↔ s.Outdated lastIn := by
      unfold Dec.Outdated
      cases s.lastId <;> simp
    split at h
    · next hc => cases h; exact .inl ⟨.inl ⟨lastIn, by rw [e1]; rfl, hout.1 hc⟩, rfl⟩
    next hno =>
    split at h
    · next hc => cases h; exact .inl ⟨.inr hc, rfl⟩
    next hnh =>
    refine .inr ⟨⟨lastIn, by rw [e1]; rfl, fun hh => hno (hout.2 hh)⟩, by simpa using hnh, firstIn, e2, ?_⟩
    rw [bind_ok_iff] at h
    obtain ⟨s1, h1, h⟩ := h
    have l1 := dropOutdated_low h1 hl
    split at h
    · cases h; exact ⟨l1.last, l1.src, l1.mis, l1.rep, l1.sorted, l1.keys⟩
    rw [bind_ok_iff] at h
    obtain ⟨_, _, h⟩ := h
    rw [bind_ok_iff] at h
    obtain ⟨⟨r', m⟩, hf, h⟩ := h
    simp only at h
    rw [bind_ok_iff] at h
    obtain ⟨_, _, h⟩ := h
    have hids : ∀ x ∈ r.ids, firstIn ≤ x := by
      intro x hx
      cases hr : r.ids with
      | nil => rw [hr] at hx; cases hx
      | cons a t =>
        rw [hr] at e2 hx hs
        cases e2
        rcases List.mem_cons.1 hx with rfl | hx
        · exact Nat.le_refl _
        · exact Nat.le_of_lt ((List.pairwise_cons.1 hs).1 x hx)
    obtain ⟨g1, g2, g3⟩ := linkFold_low _ _ _ hf (fun x hx => hids x (List.mem_reverse.1 hx)) hids hs l1.mis
    have l2 : Low firstIn (some firstIn) { s1 with repairs := s1.repairs.emplace r'.id r', missing := m } := by
      refine ⟨l1.last, l1.src, g3, ?_, ?_, sorted_emplace _ l1.keys _ _⟩
      · intro p hp
        rcases mem_emplace' hp with hp | rfl
        · exact l1.rep p hp
        · exact g1
      · intro p hp
        rcases mem_emplace' hp with hp | rfl
        · exact l1.sorted p hp
        · exact g2
    split at h
    · rw [bind_ok_iff] at h
      obtain ⟨src, hsrc, h⟩ := h
      refine (add_scan_low gf dbg _).1 _ _ _ h (g1 _ (createSource_id hsrc)) ?_
      exact ⟨l2.last, l2.src, fun x hx => l2.mis x ((mem_keys_erase _ _ _).1 hx).1,
        fun p hp => l2.rep p ((mem_erase _ _ _).1 hp).1, fun p hp => l2.sorted p ((mem_erase _ _ _).1 hp).1,
        sorted_erase l2.keys _⟩
    · exact fullDecode_low h l2
  · cases h

/-! ## Histories -/

theorem readIds_sorted {p : List Byte} {c c' : Cur} {ids : List Nat} (h : readIds p c = .ok (ids, c')) : Sorted ids := by
  rw [readIds_eq] at h
  obtain ⟨nb, _, -, h6⟩ := rbind_inv h
  split at h6
  · cases h6; exact List.Pairwise.nil
  · obtain ⟨_, _, -, h7⟩ := rbind_inv h6
    obtain ⟨_, _, -, h8⟩ := rbind_inv h7
    cases h8
    exact foldl_setInsert_sorted _ _ List.Pairwise.nil

theorem readRepair_sorted {p : List Byte} {r : DRepair} {n : Nat} (h : readRepair p = .ok (r, n)) : Sorted r.ids := by
  rw [readRepair_eq] at h
  obtain ⟨⟨r', c⟩, h1, h2⟩ := map_ok_inv h
  cases h2
  unfold repairReader at h1
  obtain ⟨_, _, -, h1⟩ := rbind_inv h1
  obtain ⟨ids, _, h4, h1⟩ := rbind_inv h1
  obtain ⟨_, _, -, h1⟩ := rbind_inv h1
  cases h1
  exact readIds_sorted h4

theorem afterDet_det {clk : Clock} {d : NDec} {det' : Dec} (hp : d.det.log <+: det'.log) : (d.afterDet clk det').det = det' :=
  (afterDet_step clk d det' hp).2.1

theorem maybeAckWith_det (clk : Clock) (d : NDec) (held : List Nat) : (d.maybeAckWith clk held).det = d.det := by
  unfold NDec.maybeAckWith
  split
  · rfl
  · split
    · simp only
      split <;> rfl
    · rfl

/-- The decoder after a call: unchanged inside, or what a source or a repair makes of it. -/
theorem act_det {gf : GF w} {dbg : Bool} {clk : Clock} {d d' : NDec} {a : DAct} (h : d.act gf dbg clk a = .ok d') :
    d'.det = d.det ∨ ∃ p n, a = .packet p ∧
      ((∃ s, p.head? = some 2#8 ∧ readSource p = .ok (s, n) ∧ d.det.onSource gf dbg s = .ok d'.det) ∨
       (∃ r, p.head? = some 1#8 ∧ readRepair p = .ok (r, n) ∧ d.det.onRepair gf dbg r = .ok d'.det)) := by
  cases a with
  | packet p =>
    simp only [NDec.act, map_ok_iff] at h
    obtain ⟨⟨d1, r⟩, h1, rfl⟩ := h
    cases notify_got h1 with
    | other => exact .inl rfl
    | badSource => exact .inl rfl
    | badRepair => exact .inl rfl
    | source s n det' g1 g2 g3 =>
      have e : (d.gotSource.afterDet clk det').det = det' := afterDet_det (onSource_ext g3).log
      exact .inr ⟨p, n, rfl, .inl ⟨s, g1, g2, by rw [e]; exact g3⟩⟩
    | repair r n det' g1 g2 g3 =>
      have e : (d.gotRepair.afterDet clk det').det = det' := afterDet_det (onRepair_ext g3).log
      exact .inr ⟨p, n, rfl, .inr ⟨r, g1, g2, by rw [e]; exact g3⟩⟩
  | genAck => cases h; exact .inl rfl
  | maybeAck => cases h; exact .inl (maybeAckWith_det clk d _)
  | setAckNb n =>
    simp only [NDec.act, NDec.setAckNb, bind_ok_iff, pure_ok_iff] at h
    obtain ⟨_, _, rfl⟩ := h
    exact .inl rfl
  | setAckPeriod ms => cases h; exact .inl rfl

theorem act_low {gf : GF w} {dbg : Bool} {clk : Clock} {d d' : NDec} {a : DAct} (h : d.act gf dbg clk a = .ok d')
    (hl : Low (d.det.lastId.getD 0) d.det.lastId d.det) : Low (d'.det.lastId.getD 0) d'.det.lastId d'.det := by
  rcases act_det h with e | ⟨p, n, rfl, ⟨s, h1, h2, h3⟩ | ⟨r, h1, h2, h3⟩⟩
  · rw [e]; exact hl
  · have := onSource_low h3 rfl hl
    rw [this.last]; exact this
  · rcases onRepair_low h3 (readRepair_sorted h2) hl with ⟨-, e⟩ | ⟨-, -, f, -, h4⟩
    · rw [e]; exact hl
    · rw [h4.last]; exact h4

theorem after_low {gf : GF w} {dbg : Bool} {clk : Clock} {io : Bool} {acts : List DAct} {d : NDec}
    (h : (NDec.init clk io).after gf dbg clk acts = .ok d) : Low (d.det.lastId.getD 0) d.det.lastId d.det :=
  nafter_induct (fun d => Low (d.det.lastId.getD 0) d.det.lastId d.det) (fun _ _ _ h1 h2 => act_low h2 h1) acts _ _
    ⟨rfl, fun _ _ => Nat.zero_le _, fun _ _ => Nat.zero_le _, fun _ _ _ _ => Nat.zero_le _,
      fun _ hp => (by cases hp), (by unfold SortedKeys; exact List.Pairwise.nil)⟩ h

end Netcode
