import Verif.Proofs.DecProps

/-!
# The counter of the failed full decodings
-/

namespace Netcode

open OMap

variable {w : Nat}

theorem flush_failed {dbg : Bool} {s s' : Dec} (h : s.flush dbg = .ok s') : s'.nbFailed = s.nbFailed := by
  have hl : ∀ (l : List Nat) (u u' : Dec), flushLoop dbg l u = .ok u' → u'.nbFailed = u.nbFailed := by
    intro l
    induction l with
    | nil => intro u u' hu; cases hu; rfl
    | cons id rest ih =>
      intro u u' hu
      unfold flushLoop at hu
      rw [bind_ok_iff] at hu
      obtain ⟨_, _, hu⟩ := hu
      rw [bind_ok_iff] at hu
      obtain ⟨s1, h1, hu⟩ := hu
      have e1 : s1.nbFailed = u.nbFailed := by
        unfold Dec.callbackOrdered at h1
        split at h1
        · cases h1
        · cases h1; rfl
      cases rest with
      | nil => cases hu; exact e1
      | cons nxt t =>
        simp only at hu
        split at hu
        · cases hu; exact e1
        · exact (ih _ _ hu).trans e1
  unfold Dec.flush at h
  split at h
  · exact hl _ _ _ h
  · cases h; rfl

theorem addSourceHead_failed {gf : GF w} {dbg : Bool} {src : DSource} {s s' : Dec}
    (h : addSourceHead gf dbg src s = .ok s') : s'.nbFailed = s.nbFailed := by
  have hr : ∀ (l : List Nat) (u u' : Dec), removeFromAll gf dbg src l u = .ok u' → u'.nbFailed = u.nbFailed := by
    intro l
    induction l with
    | nil => intro u u' hu; cases hu; rfl
    | cons rid t ih =>
      intro u u' hu
      unfold removeFromAll at hu
      split at hu
      · cases hu
      · rw [bind_ok_iff] at hu
        obtain ⟨r', _, hu⟩ := hu
        have := ih _ _ hu
        exact this
  unfold addSourceHead at h
  rw [bind_ok_iff] at h
  obtain ⟨s1, h1, h⟩ := h
  have e1 : s1.nbFailed = s.nbFailed := by
    unfold Dec.giveNew at h1
    split at h1
    · cases h1; rfl
    · split at h1
      · have := flush_failed h1
        exact this
      · cases h1; rfl
  split at h
  · cases h; exact e1
  · rw [bind_ok_iff] at h
    obtain ⟨s2, h2, h⟩ := h
    cases h
    exact (hr _ _ _ h2).trans e1

/-- Adding a source, and all that follows from it, is no full decoding. -/
theorem add_scan_failed (gf : GF w) (dbg : Bool) (fuel : Nat) :
    (∀ src s s', addSource gf dbg fuel src s = .ok s' → s'.nbFailed = s.nbFailed) ∧
    (∀ k s s', scanMissing gf dbg fuel k s = .ok s' → s'.nbFailed = s.nbFailed) := by
  induction fuel with
  | zero =>
    constructor
    · intro src s s' h; unfold addSource at h; cases h
    · intro k s s' h
      cases k with
      | none => unfold scanMissing at h; cases h; rfl
      | some k => unfold scanMissing at h; cases h
  | succ fuel ih =>
    constructor
    · intro src s s' h
      unfold addSource at h
      rw [bind_ok_iff] at h
      obtain ⟨s1, h1, h⟩ := h
      rw [bind_ok_iff] at h
      obtain ⟨s2, h2, h⟩ := h
      have e3 : s'.nbFailed = s2.nbFailed := by
        unfold addSourceTail at h
        rw [bind_ok_iff] at h
        obtain ⟨_, _, h⟩ := h
        simp only at h
        split at h <;> (cases h; rfl)
      exact e3.trans ((ih.2 _ _ _ h2).trans (addSourceHead_failed h1))
    · intro k s s' h
      cases k with
      | none => unfold scanMissing at h; cases h; rfl
      | some k =>
        unfold scanMissing at h
        split at h
        · cases h
        · split at h
          · cases h
          · split at h
            · rw [bind_ok_iff] at h
              obtain ⟨_, _, h⟩ := h
              rw [bind_ok_iff] at h
              obtain ⟨_, _, h⟩ := h
              rw [bind_ok_iff] at h
              obtain ⟨src, _, h⟩ := h
              simp only at h
              rw [bind_ok_iff] at h
              obtain ⟨s1, h1, h⟩ := h
              have := ih.1 _ _ _ h1
              exact (ih.2 _ _ _ h).trans this
            · exact ih.2 _ _ _ h
        · exact ih.2 _ _ _ h

/-- An attempt at full decoding succeeds, does nothing, or gives up exactly one repair. -/
theorem fullDecode_failed {gf : GF w} {dbg : Bool} {s s' : Dec} (h : s.fullDecode gf dbg = .ok s') :
    s'.nbFailed = s.nbFailed ∨ (s'.nbFailed = s.nbFailed + 1 ∧ s'.nbDecoded = s.nbDecoded ∧ s'.log = s.log ∧
      s'.sources = s.sources ∧ s'.ordered = s.ordered ∧ ∃ rid ∈ s.repairs.keys, s'.repairs = s.repairs.erase rid) := by
  have hg : ∀ {src : DSource} {u u' : Dec}, u.giveDecoded dbg src = .ok u' → u'.nbFailed = u.nbFailed := by
    intro src u u' hu
    unfold Dec.giveDecoded at hu
    split at hu
    · cases hu; rfl
    · split at hu
      · have := flush_failed hu
        exact this
      · cases hu; rfl
  have hl : ∀ (inv : Mat w) (reps : List DRepair) (l : List Nat) (col : Nat) (u u' : Dec),
      decodeLoop gf dbg inv reps col l u = .ok u' → u'.nbFailed = u.nbFailed := by
    intro inv reps l
    induction l with
    | nil => intro col u u' hu; unfold decodeLoop at hu; cases hu; rfl
    | cons x t ih =>
      intro col u u' hu
      unfold decodeLoop at hu
      rw [bind_ok_iff] at hu
      obtain ⟨_, _, hu⟩ := hu
      rw [bind_ok_iff] at hu
      obtain ⟨s1, h1, hu⟩ := hu
      refine (ih _ _ _ hu).trans ?_
      unfold Dec.insertDecoded at h1
      rw [bind_ok_iff] at h1
      obtain ⟨_, _, h1⟩ := h1
      simp only at h1
      split at h1
      · cases h1
      · have := hg h1
        exact this
  unfold Dec.fullDecode at h
  split at h
  · cases h; exact .inl rfl
  split at h
  · cases h; exact .inl rfl
  rw [bind_ok_iff] at h
  obtain ⟨_, _, h⟩ := h
  rw [bind_ok_iff] at h
  obtain ⟨_, _, h⟩ := h
  rw [bind_ok_iff] at h
  obtain ⟨_, he, h⟩ := h
  split at h
  · split at h
    · cases h
    · rename_i rid r hr
      rw [bind_ok_iff] at h
      obtain ⟨_, _, h⟩ := h
      cases h
      exact .inr ⟨rfl, rfl, rfl, rfl, rfl, rid, List.mem_map.2 ⟨_, List.mem_of_getElem? hr, rfl⟩, rfl⟩
  · simp only at h
    rw [bind_ok_iff] at h
    obtain ⟨s1, h1, h⟩ := h
    cases h
    have := hl _ _ _ _ _ _ h1
    exact .inl this

theorem keys_length_erase {V : Type} {m : OMap V} {k : Nat} (h : k ∈ m.keys) : (m.erase k).length + 1 ≤ m.length := by
  cases hg : m.get? k with
  | some v => exact length_erase_lt hg
  | none => exact absurd h ((get?_eq_none_iff _ _).1 hg)

theorem onSource_failed {gf : GF w} {dbg : Bool} {s s' : Dec} {src : DSource} (h : s.onSource gf dbg src = .ok s') :
    s'.nbFailed = s.nbFailed ∨ (s'.nbFailed = s.nbFailed + 1 ∧
      s'.nbDecoded + s'.nbUseless + s'.repairs.length + 1 ≤ s.nbDecoded + s.nbUseless + s.repairs.length) := by
  have hu := onSource_uses h
  unfold Dec.onSource at h
  split at h
  · cases h; exact .inl rfl
  · split at h
    · cases h; exact .inl rfl
    · rw [bind_ok_iff] at h
      obtain ⟨s1, e1, h⟩ := h
      have a := (add_scan_failed gf dbg _).1 _ _ _ e1
      rcases fullDecode_failed h with b | ⟨b, _⟩
      · exact .inl (b.trans a)
      · refine .inr ⟨by rw [b, a], ?_⟩
        omega

theorem onRepair_failed {gf : GF w} {dbg : Bool} {s s' : Dec} {r : DRepair} (h : s.onRepair gf dbg r = .ok s') :
    s'.nbFailed = s.nbFailed ∨ (s'.nbFailed = s.nbFailed + 1 ∧ s'.nbDecoded = s.nbDecoded ∧
      s'.repairs.length ≤ s.repairs.length ∧ (s.inOrder = false → s'.log = s.log)) := by
  unfold Dec.onRepair at h
  rw [bind_ok_iff] at h
  obtain ⟨_, _, h⟩ := h
  split at h
  · split at h
    · cases h; exact .inl rfl
    split at h
    · cases h; exact .inl rfl
    rw [bind_ok_iff] at h
    obtain ⟨s1, h1, h⟩ := h
    obtain ⟨a1, b1⟩ := dropOutdated_uses h1
    obtain ⟨_, _, g1, _, g3, g4⟩ := dropOutdated_fromHeld h1
    split at h
    · cases h; exact .inl g4
    rw [bind_ok_iff] at h
    obtain ⟨_, _, h⟩ := h
    rw [bind_ok_iff] at h
    obtain ⟨⟨r', m⟩, _, h⟩ := h
    simp only at h
    rw [bind_ok_iff] at h
    obtain ⟨_, _, h⟩ := h
    have l1 := length_emplace_le s1.repairs r'.id r'
    split at h
    · rw [bind_ok_iff] at h
      obtain ⟨src, _, h⟩ := h
      have := (add_scan_failed gf dbg _).1 _ _ _ h
      exact .inl (this.trans g4)
    · rcases fullDecode_failed h with b | ⟨b, b2, b3, _, _, rid, b5, b6⟩
      · exact .inl (b.trans g4)
      · refine .inr ⟨b.trans (by rw [← g4]), b2.trans g3, ?_, fun hi => b3.trans (g1 hi)⟩
        have := keys_length_erase b5
        rw [b6]
        simp only at this ⊢
        omega
  · cases h

end Netcode
