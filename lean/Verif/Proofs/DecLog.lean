import Verif.Proofs.DecPrim

/-!
# Delivery: the log of the decoder and the sources withheld in order mode
-/

namespace Netcode

/-- Identifiers of the sources given to the callback. -/
def Dec.logIds (s : Dec) : List Nat := s.log.map (·.id)

/-- Only the fields used by the delivery differ. -/
def SameCore (s s' : Dec) : Prop :=
  s' = { s with log := s'.log, ordered := s'.ordered, firstMissing := s'.firstMissing } ∧ s.log <+: s'.log

theorem SameCore.refl (s : Dec) : SameCore s s := ⟨rfl, List.prefix_refl _⟩

theorem SameCore.trans {a b c : Dec} (h1 : SameCore a b) (h2 : SameCore b c) : SameCore a c := by
  refine ⟨?_, h1.2.trans h2.2⟩
  obtain ⟨e1, _⟩ := h1
  obtain ⟨e2, _⟩ := h2
  cases a; cases b; cases c
  simp_all

section
variable {s s' : Dec} (h : SameCore s s')
include h
theorem SameCore.inOrder : s'.inOrder = s.inOrder := by rw [h.1]
theorem SameCore.repairs : s'.repairs = s.repairs := by rw [h.1]
theorem SameCore.sources : s'.sources = s.sources := by rw [h.1]
theorem SameCore.missing : s'.missing = s.missing := by rw [h.1]
theorem SameCore.lastId : s'.lastId = s.lastId := by rw [h.1]
theorem SameCore.nbDecoded : s'.nbDecoded = s.nbDecoded := by rw [h.1]
theorem SameCore.nbUseless : s'.nbUseless = s.nbUseless := by rw [h.1]
theorem SameCore.nbFailed : s'.nbFailed = s.nbFailed := by rw [h.1]
end

/-- What every delivery preserves: the log contains only data of known sources. -/
structure LogOk (data : Nat → List Byte) (K : Set Nat) (s : Dec) : Prop where
  logData : ∀ ev ∈ s.log, ev.data = data ev.id
  held : ∀ ev ∈ s.log, ∀ x ∈ ev.held, x ∈ K
  bound : ∀ x ∈ K, x + 1 < 2 ^ 32

/-- In-order mode, `firstMissing` possibly known already. -/
structure OrdPre (L : Nat) (K : Set Nat) (s : Dec) : Prop where
  logSorted : Sorted s.logIds
  logMem : ∀ x, x ∈ s.logIds ↔ x ∈ K ∧ x < s.firstMissing
  ordSorted : Sorted s.ordered
  ordMem : ∀ x, x ∈ s.ordered ↔ x ∈ K ∧ s.firstMissing ≤ x
  lo : L ≤ s.firstMissing
  full : ∀ y, L ≤ y → y < s.firstMissing → y ∈ K

/-- Delivery invariant. `K` are the sources received or decoded so far, `L` the oldest source that is not
outdated. -/
structure LogInv (data : Nat → List Byte) (L : Nat) (K : Set Nat) (s : Dec) : Prop extends LogOk data K s where
  unord : s.inOrder = false → s.logIds.Nodup ∧ (∀ x, x ∈ s.logIds ↔ x ∈ K) ∧ s.ordered = []
  ord : s.inOrder = true → OrdPre L K s ∧ s.firstMissing ∉ K

theorem OrdPre.fm_le {L K s} (h : OrdPre L K s) {x : Nat} (hx : L ≤ x) (hk : x ∉ K) : s.firstMissing ≤ x := by
  by_contra hc
  exact hk (h.full x hx (by omega))

theorem callback_logIds (s : Dec) (src : DSource) : (s.callback src).logIds = s.logIds ++ [src.id] := by
  simp [Dec.callback, Dec.logIds]

theorem sorted_append_singleton {l : List Nat} {x : Nat} (h : Sorted l) (hx : ∀ y ∈ l, y < x) :
    Sorted (l ++ [x]) := by
  rw [Sorted, List.pairwise_append]
  refine ⟨h, by simp, ?_⟩
  intro a ha b hb
  simp only [List.mem_singleton] at hb
  subst hb; exact hx a ha

/-- What `flushLoop` does after the first element. -/
def flushNext (dbg : Bool) (rest : List Nat) (s : Dec) : Out Dec :=
  match rest with
  | [] => .ok s
  | nxt :: _ => if nxt > s.firstMissing then .ok s else flushLoop dbg rest s

theorem flushLoop_cons (dbg : Bool) (id : Nat) (rest : List Nat) (s s0 : Dec) (h : id = s.firstMissing)
    (h0 : s.callbackOrdered id = .ok s0) :
    flushLoop dbg (id :: rest) s = flushNext dbg rest
      { s0 with ordered := s0.ordered.erase id, firstMissing := (s0.firstMissing + 1) % 2 ^ 32 } := by
  conv_lhs => unfold flushLoop
  rw [cassert_true _ (by simpa using h)]
  simp only [bind, Except.bind, h0]
  cases rest <;> rfl

theorem flushLoop_ok (data : Nat → List Byte) (dbg : Bool) (L : Nat) (K : Set Nat) (l : List Nat) (s : Dec)
    (hl : s.ordered = l) (hne : ∃ t, l = s.firstMissing :: t) (hp : OrdPre L K s) (hk : LogOk data K s)
    (hsrc : ∀ x ∈ s.ordered, s.sources.get? x = some ⟨x, data x⟩)
    (hkeys : ∀ x ∈ s.sources.keys, x ∈ K) :
    ∃ s', flushLoop dbg l s = .ok s' ∧ SameCore s s' ∧ OrdPre L K s' ∧ s'.firstMissing ∉ K ∧ LogOk data K s' := by
  induction l generalizing s with
  | nil => obtain ⟨t, ht⟩ := hne; cases ht
  | cons id rest ih =>
    obtain ⟨t, ht⟩ := hne
    obtain ⟨rfl, rfl⟩ : id = s.firstMissing ∧ rest = t := by simpa using ht
    have hmem : s.firstMissing ∈ s.ordered := by rw [hl]; simp
    have hK : s.firstMissing ∈ K := ((hp.ordMem _).1 hmem).1
    have hb := hk.bound _ hK
    have hmod : (s.firstMissing + 1) % 2 ^ 32 = s.firstMissing + 1 := Nat.mod_eq_of_lt hb
    have e1 : s.callbackOrdered s.firstMissing = .ok (s.callback ⟨s.firstMissing, data s.firstMissing⟩) := by
      simp [Dec.callbackOrdered, hsrc _ hmem]
    rw [flushLoop_cons dbg _ _ s _ rfl e1]
    generalize hs1 : ({ s.callback ⟨s.firstMissing, data s.firstMissing⟩ with
        ordered := (s.callback ⟨s.firstMissing, data s.firstMissing⟩).ordered.erase s.firstMissing,
        firstMissing := ((s.callback ⟨s.firstMissing, data s.firstMissing⟩).firstMissing + 1) % 2 ^ 32 } : Dec) = s1
    have f_fm : s1.firstMissing = s.firstMissing + 1 := by rw [← hs1]; exact hmod
    have f_ord : s1.ordered = rest := by rw [← hs1]; simp [Dec.callback, hl]
    have f_log : s1.logIds = s.logIds ++ [s.firstMissing] := by rw [← hs1]; simp [Dec.callback, Dec.logIds]
    have f_log2 : s1.log = s.log ++ [⟨s.firstMissing, data s.firstMissing, s.sources.keys⟩] := by rw [← hs1]; rfl
    have f_src : s1.sources = s.sources := by rw [← hs1]; rfl
    have f_core : SameCore s s1 := by
      constructor
      · rw [← hs1]; rfl
      · rw [f_log2]; exact List.prefix_append _ _
    have hsort := hp.ordSorted
    rw [hl, Sorted, List.pairwise_cons] at hsort
    have hp1 : OrdPre L K s1 := by
      constructor
      · rw [f_log]
        exact sorted_append_singleton hp.logSorted (fun y hy => ((hp.logMem y).1 hy).2)
      · intro x
        rw [f_log, f_fm, List.mem_append, hp.logMem, List.mem_singleton]
        constructor
        · rintro (⟨h1, h2⟩ | rfl)
          · exact ⟨h1, by omega⟩
          · exact ⟨hK, by omega⟩
        · rintro ⟨h1, h2⟩
          by_cases hx : x = s.firstMissing
          · exact Or.inr hx
          · exact Or.inl ⟨h1, by omega⟩
      · rw [f_ord]; exact hsort.2
      · intro x
        rw [f_ord, f_fm]
        have h0 := hp.ordMem x
        rw [hl, List.mem_cons] at h0
        constructor
        · intro h
          have := hsort.1 x h
          exact ⟨(h0.1 (Or.inr h)).1, by omega⟩
        · rintro ⟨h1, h2⟩
          rcases h0.2 ⟨h1, by omega⟩ with h | h
          · omega
          · exact h
      · rw [f_fm]; have := hp.lo; omega
      · intro y h1 h2
        rw [f_fm] at h2
        by_cases hy : y = s.firstMissing
        · rw [hy]; exact hK
        · exact hp.full y h1 (by omega)
    have hk1 : LogOk data K s1 := by
      constructor
      · intro ev hev
        rw [f_log2, List.mem_append, List.mem_singleton] at hev
        rcases hev with hev | rfl
        · exact hk.logData ev hev
        · rfl
      · intro ev hev
        rw [f_log2, List.mem_append, List.mem_singleton] at hev
        rcases hev with hev | rfl
        · exact hk.held ev hev
        · exact hkeys
      · exact hk.bound
    have hsrc1 : ∀ x ∈ s1.ordered, s1.sources.get? x = some ⟨x, data x⟩ := by
      intro x hx
      rw [f_src]; apply hsrc; rw [hl]; rw [f_ord] at hx; simp [hx]
    unfold flushNext
    match hrest : rest with
    | [] =>
      refine ⟨s1, rfl, f_core, hp1, ?_, hk1⟩
      intro hc
      have := (hp1.ordMem _).2 ⟨hc, le_refl _⟩
      rw [f_ord] at this; simp at this
    | nxt :: u =>
      simp only
      split
      · rename_i hgt
        refine ⟨s1, rfl, f_core, hp1, ?_, hk1⟩
        intro hc
        have h1 := (hp1.ordMem _).2 ⟨hc, le_refl _⟩
        have h2 := hp1.ordSorted
        rw [f_ord] at h1 h2
        rw [Sorted, List.pairwise_cons] at h2
        rcases List.mem_cons.1 h1 with h1 | h1
        · omega
        · have := h2.1 _ h1; omega
      · rename_i hle
        have h1 : nxt ∈ s1.ordered := by rw [f_ord]; simp
        have h2 := ((hp1.ordMem nxt).1 h1).2
        obtain ⟨s', e, c, r1, r2, r3⟩ := ih s1 f_ord ⟨u, by
          have : nxt = s1.firstMissing := by omega
          rw [this]⟩ hp1 hk1 hsrc1 (by rw [f_src]; exact hkeys)
        exact ⟨s', e, f_core.trans c, r1, r2, r3⟩

theorem flush_ok (data : Nat → List Byte) (dbg : Bool) (L : Nat) (K : Set Nat) (s : Dec)
    (hp : OrdPre L K s) (hk : LogOk data K s) (hsrc : ∀ x ∈ s.ordered, s.sources.get? x = some ⟨x, data x⟩)
    (hkeys : ∀ x ∈ s.sources.keys, x ∈ K) :
    ∃ s', s.flush dbg = .ok s' ∧ SameCore s s' ∧ OrdPre L K s' ∧ s'.firstMissing ∉ K ∧ LogOk data K s' := by
  unfold Dec.flush
  split
  · rename_i hmem
    have hd : s.ordered.dropWhile (fun k => decide (k < s.firstMissing)) = s.ordered := by
      cases hl : s.ordered with
      | nil => rfl
      | cons a t =>
        have := ((hp.ordMem a).1 (by rw [hl]; simp)).2
        rw [List.dropWhile_cons, if_neg]
        simpa using this
    rw [hd]
    apply flushLoop_ok data dbg L K _ s rfl ?_ hp hk hsrc hkeys
    cases hl : s.ordered with
    | nil => rw [hl] at hmem; simp at hmem
    | cons a t =>
      have h1 := ((hp.ordMem a).1 (by rw [hl]; simp)).2
      have h2 := hp.ordSorted
      rw [hl, Sorted, List.pairwise_cons] at h2
      rw [hl, List.mem_cons] at hmem
      rcases hmem with hmem | hmem
      · exact ⟨t, by rw [hmem]⟩
      · have := h2.1 _ hmem; omega
  · rename_i hmem
    refine ⟨s, rfl, SameCore.refl s, hp, ?_, hk⟩
    intro hc
    exact hmem ((hp.ordMem _).2 ⟨hc, le_refl _⟩)

/-- `giveOutdated` on the withheld sources older than `id`, then the rest of the in-order part of
`dropOutdated`. -/
theorem giveOutdated_ok (data : Nat → List Byte) (K : Set Nat) (l : List Nat) (s : Dec) (rest : List Nat)
    (hl : s.ordered = l ++ rest) (hsort : Sorted s.ordered) (hk : LogOk data K s)
    (hsrc : ∀ x ∈ s.ordered, s.sources.get? x = some ⟨x, data x⟩) (hkeys : ∀ x ∈ s.sources.keys, x ∈ K) :
    ∃ s', giveOutdated l s = .ok s' ∧ SameCore s s' ∧ s'.ordered = rest ∧ s'.logIds = s.logIds ++ l ∧
      s'.firstMissing = s.firstMissing ∧ LogOk data K s' := by
  induction l generalizing s with
  | nil => exact ⟨s, rfl, SameCore.refl s, by simpa using hl, by simp, rfl, hk⟩
  | cons k t ih =>
    unfold giveOutdated
    have e1 : s.callbackOrdered k = .ok (s.callback ⟨k, data k⟩) := by
      simp [Dec.callbackOrdered, hsrc k (by rw [hl]; simp)]
    simp only [bind, Except.bind, e1]
    generalize hs1 : ({ s.callback ⟨k, data k⟩ with ordered := (s.callback ⟨k, data k⟩).ordered.erase k } : Dec) = s1
    have f_ord : s1.ordered = t ++ rest := by rw [← hs1]; simp [Dec.callback, hl]
    have f_log2 : s1.log = s.log ++ [⟨k, data k, s.sources.keys⟩] := by rw [← hs1]; rfl
    have f_log : s1.logIds = s.logIds ++ [k] := by unfold Dec.logIds; rw [f_log2]; simp
    have f_src : s1.sources = s.sources := by rw [← hs1]; rfl
    have f_core : SameCore s s1 := by
      constructor
      · rw [← hs1]; rfl
      · rw [f_log2]; exact List.prefix_append _ _
    have hk1 : LogOk data K s1 := by
      constructor
      · intro ev hev
        rw [f_log2, List.mem_append, List.mem_singleton] at hev
        rcases hev with hev | rfl
        · exact hk.logData ev hev
        · rfl
      · intro ev hev
        rw [f_log2, List.mem_append, List.mem_singleton] at hev
        rcases hev with hev | rfl
        · exact hk.held ev hev
        · exact hkeys
      · exact hk.bound
    obtain ⟨s', e, c, r1, r2, r3, r4⟩ := ih s1 f_ord (by
        rw [f_ord]; rw [hl] at hsort; exact (List.pairwise_cons.1 hsort).2) hk1 (by
        intro x hx; rw [f_src]; apply hsrc; rw [hl]; rw [f_ord] at hx; simp at hx ⊢; tauto) (by rw [f_src]; exact hkeys)
    refine ⟨s', e, f_core.trans c, r1, ?_, ?_, r4⟩
    · rw [r2, f_log]; simp
    · rw [r3, ← hs1]; rfl

end Netcode
