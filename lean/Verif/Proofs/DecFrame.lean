import Verif.Proofs.DecLog

/-!
# What every call of `detail::decoder` preserves, whatever its state

The log only grows, the ordering mode never changes, and, when sources are not ordered, the number of calls
of the callback is the number of decoded sources plus the number of accepted sources.
-/

namespace Netcode

variable {w : Nat}

theorem bind_ok_iff {α β : Type} {x : Out α} {f : α → Out β} {b : β} :
    (x >>= f) = .ok b ↔ ∃ a, x = .ok a ∧ f a = .ok b := by
  cases x with
  | error e => simp [bind, Except.bind]
  | ok a => simp [bind, Except.bind]

theorem pure_ok_iff {α : Type} {a b : α} : (pure a : Out α) = .ok b ↔ a = b := by
  simp [pure, Except.pure]

/-- `s'` was reached from `s` by `k` accepted sources and any number of decoded ones. -/
structure Ext (k : Nat) (s s' : Dec) : Prop where
  log : s.log <+: s'.log
  inOrder : s'.inOrder = s.inOrder
  dec : s.nbDecoded ≤ s'.nbDecoded
  count : s.inOrder = false → s'.log.length + s.nbDecoded = s.log.length + s'.nbDecoded + k

theorem Ext.refl (s : Dec) : Ext 0 s s := ⟨List.prefix_refl _, rfl, Nat.le_refl _, fun _ => rfl⟩

theorem Ext.trans {k l : Nat} {a b c : Dec} (h1 : Ext k a b) (h2 : Ext l b c) : Ext (k + l) a c := by
  refine ⟨h1.log.trans h2.log, h2.inOrder.trans h1.inOrder, Nat.le_trans h1.dec h2.dec, fun h => ?_⟩
  have e1 := h1.count h
  have e2 := h2.count (h1.inOrder.trans h)
  omega

/-- A change of the other fields only. -/
theorem Ext.same {s s' : Dec} (h1 : s'.log = s.log) (h2 : s'.inOrder = s.inOrder) (h3 : s'.nbDecoded = s.nbDecoded) :
    Ext 0 s s' := by
  refine ⟨by rw [h1], h2, by rw [h3], fun _ => by rw [h1, h3]; omega⟩

theorem Ext.congr {k l : Nat} {s s' : Dec} (h : Ext k s s') (e : k = l) : Ext l s s' := e ▸ h

theorem Ext.pre {k : Nat} {s0 s s' : Dec} (h : Ext k s0 s') (h1 : s0.log = s.log) (h2 : s0.inOrder = s.inOrder)
    (h3 : s0.nbDecoded = s.nbDecoded) : Ext k s s' := by
  refine ⟨by rw [← h1]; exact h.log, by rw [← h2]; exact h.inOrder, by rw [← h3]; exact h.dec, fun hf => ?_⟩
  rw [← h1, ← h3]; exact h.count (h2.trans hf)

theorem Ext.post {k : Nat} {s s1 s' : Dec} (h : Ext k s s1) (h1 : s'.log = s1.log) (h2 : s'.inOrder = s1.inOrder)
    (h3 : s'.nbDecoded = s1.nbDecoded) : Ext k s s' := by
  refine ⟨by rw [h1]; exact h.log, by rw [h2]; exact h.inOrder, by rw [h3]; exact h.dec, fun hf => ?_⟩
  rw [h1, h3]; exact h.count hf

theorem callback_ext (s : Dec) (src : DSource) : Ext 1 s (s.callback src) := by
  refine ⟨List.prefix_append _ _, rfl, Nat.le_refl _, fun _ => ?_⟩
  simp [Dec.callback]; omega

/-- Only the log matters in order mode. -/
structure OExt (s s' : Dec) : Prop where
  log : s.log <+: s'.log
  inOrder : s'.inOrder = s.inOrder
  dec : s'.nbDecoded = s.nbDecoded

theorem OExt.trans {a b c : Dec} (h1 : OExt a b) (h2 : OExt b c) : OExt a c :=
  ⟨h1.log.trans h2.log, h2.inOrder.trans h1.inOrder, h2.dec.trans h1.dec⟩

theorem OExt.ext {s s' : Dec} (h : OExt s s') (ho : s.inOrder = true) (k : Nat) : Ext k s s' :=
  ⟨h.log, h.inOrder, by rw [h.dec], fun hf => by rw [ho] at hf; cases hf⟩

theorem callbackOrdered_ext {s s' : Dec} {id : Nat} (h : s.callbackOrdered id = .ok s') : OExt s s' := by
  unfold Dec.callbackOrdered at h
  split at h
  · cases h
  · cases h
    exact ⟨List.prefix_append _ _, rfl, rfl⟩

theorem flushLoop_ext (dbg : Bool) (l : List Nat) (s s' : Dec) (h : flushLoop dbg l s = .ok s') : OExt s s' := by
  induction l generalizing s with
  | nil => cases h; exact ⟨List.prefix_refl _, rfl, rfl⟩
  | cons id rest ih =>
    unfold flushLoop at h
    rw [bind_ok_iff] at h
    obtain ⟨_, _, h⟩ := h
    rw [bind_ok_iff] at h
    obtain ⟨s1, h1, h⟩ := h
    have e1 := callbackOrdered_ext h1
    have e2 : OExt s { s1 with ordered := s1.ordered.erase id, firstMissing := (s1.firstMissing + 1) % 2 ^ 32 } :=
      ⟨e1.log, e1.inOrder, e1.dec⟩
    cases rest with
    | nil => cases h; exact e2
    | cons nxt t =>
      simp only at h
      split at h
      · cases h; exact e2
      · exact e2.trans (ih _ h)

theorem flush_ext {dbg : Bool} {s s' : Dec} (h : s.flush dbg = .ok s') : OExt s s' := by
  unfold Dec.flush at h
  split at h
  · exact flushLoop_ext _ _ _ _ h
  · cases h; exact ⟨List.prefix_refl _, rfl, rfl⟩

theorem removeFromAll_ext (gf : GF w) (dbg : Bool) (src : DSource) (l : List Nat) (s s' : Dec)
    (h : removeFromAll gf dbg src l s = .ok s') : Ext 0 s s' := by
  induction l generalizing s with
  | nil => cases h; exact Ext.refl _
  | cons rid t ih =>
    unfold removeFromAll at h
    split at h
    · cases h
    · rw [bind_ok_iff] at h
      obtain ⟨r', _, h⟩ := h
      exact (ih _ h).pre rfl rfl rfl

theorem giveNew_ext {dbg : Bool} {src : DSource} {s s' : Dec} (h : s.giveNew dbg src = .ok s') : Ext 1 s s' := by
  unfold Dec.giveNew at h
  split at h
  · cases h; exact callback_ext _ _
  · have ho : s.inOrder = true := by simp_all
    split at h
    · have := flush_ext h
      exact OExt.ext ⟨(List.prefix_append _ _).trans this.log, this.inOrder, this.dec⟩ ho _
    · cases h; exact OExt.ext ⟨List.prefix_refl _, rfl, rfl⟩ ho _

theorem addSourceHead_ext {gf : GF w} {dbg : Bool} {src : DSource} {s s' : Dec}
    (h : addSourceHead gf dbg src s = .ok s') : Ext 1 s s' := by
  unfold addSourceHead at h
  rw [bind_ok_iff] at h
  obtain ⟨s1, h1, h⟩ := h
  have e1 := giveNew_ext h1
  split at h
  · cases h; exact e1
  · rw [bind_ok_iff] at h
    obtain ⟨s2, h2, h⟩ := h
    cases h
    exact (e1.trans (removeFromAll_ext _ _ _ _ _ _ h2)).post rfl rfl rfl

theorem addSourceTail_ext {dbg : Bool} {src : DSource} {s s' : Dec} (h : addSourceTail dbg src s = .ok s') :
    Ext 0 s s' := by
  unfold addSourceTail at h
  rw [bind_ok_iff] at h
  obtain ⟨_, _, h⟩ := h
  simp only at h
  split at h <;> (cases h; exact Ext.same rfl rfl rfl)

theorem add_scan_ext (gf : GF w) (dbg : Bool) (fuel : Nat) :
    (∀ src s s', addSource gf dbg fuel src s = .ok s' → Ext 1 s s') ∧
    (∀ k s s', scanMissing gf dbg fuel k s = .ok s' → Ext 0 s s') := by
  induction fuel with
  | zero =>
    constructor
    · intro src s s' h; unfold addSource at h; cases h
    · intro k s s' h
      cases k with
      | none => unfold scanMissing at h; cases h; exact Ext.refl _
      | some k => unfold scanMissing at h; cases h
  | succ fuel ih =>
    constructor
    · intro src s s' h
      unfold addSource at h
      rw [bind_ok_iff] at h
      obtain ⟨s1, h1, h⟩ := h
      rw [bind_ok_iff] at h
      obtain ⟨s2, h2, h⟩ := h
      exact ((addSourceHead_ext h1).trans (ih.2 _ _ _ h2)).trans (addSourceTail_ext h)
    · intro k s s' h
      cases k with
      | none => unfold scanMissing at h; cases h; exact Ext.refl _
      | some k =>
        unfold scanMissing at h
        split at h
        · cases h
        · split at h
          · cases h
          · split at h
            · rw [bind_ok_iff] at h
              obtain ⟨_, _, h⟩ := h
              rw [bind_ok_iff] at h
              obtain ⟨_, _, h⟩ := h
              rw [bind_ok_iff] at h
              obtain ⟨src, _, h⟩ := h
              simp only at h
              rw [bind_ok_iff] at h
              obtain ⟨s1, h1, h⟩ := h
              have e1 := ih.1 _ _ _ h1
              have e2 := ih.2 _ _ _ h
              refine Ext.congr (Ext.trans (k := 0) (l := 0) ?_ e2) rfl
              refine ⟨e1.log, e1.inOrder, ?_, fun hf => ?_⟩
              · have := e1.dec; simp only at this; omega
              · have := e1.count hf; simp only at this; omega
            · exact ih.2 _ _ _ h
        · exact ih.2 _ _ _ h

theorem dropRepairs_ext (dbg : Bool) (id : Nat) (l : OMap DRepair) (s s' : Dec)
    (h : dropRepairs dbg id l s = .ok s') : Ext 0 s s' := by
  induction l generalizing s with
  | nil => cases h; exact Ext.refl _
  | cons p t ih =>
    obtain ⟨rid, r⟩ := p
    unfold dropRepairs at h
    rw [bind_ok_iff] at h
    obtain ⟨_, _, h⟩ := h
    split at h
    · cases h
    · split at h
      · rw [bind_ok_iff] at h
        obtain ⟨_, _, h⟩ := h
        rw [bind_ok_iff] at h
        obtain ⟨m, _, h⟩ := h
        exact (ih _ h).pre rfl rfl rfl
      · exact ih _ h

theorem giveOutdated_ext (l : List Nat) (s s' : Dec) (h : giveOutdated l s = .ok s') : OExt s s' := by
  induction l generalizing s with
  | nil => cases h; exact ⟨List.prefix_refl _, rfl, rfl⟩
  | cons k t ih =>
    unfold giveOutdated at h
    rw [bind_ok_iff] at h
    obtain ⟨s1, h1, h⟩ := h
    have e1 := callbackOrdered_ext h1
    have e2 := ih _ h
    exact e1.trans ⟨e2.log, e2.inOrder, e2.dec⟩

theorem giveAllOutdated_ext {dbg : Bool} {id : Nat} {s s' : Dec} (h : s.giveAllOutdated dbg id = .ok s') :
    Ext 0 s s' := by
  unfold Dec.giveAllOutdated at h
  split at h
  · next ho =>
    rw [bind_ok_iff] at h
    obtain ⟨s1, h1, h⟩ := h
    have e1 := giveOutdated_ext _ _ _ h1
    have e2 := flush_ext h
    exact OExt.ext (e1.trans ⟨e2.log, e2.inOrder, e2.dec⟩) ho _
  · cases h; exact Ext.refl _

theorem dropOutdated_ext {dbg : Bool} {id : Nat} {s s' : Dec} (h : s.dropOutdated dbg id = .ok s') : Ext 0 s s' := by
  unfold Dec.dropOutdated at h
  simp only at h
  rw [bind_ok_iff] at h
  obtain ⟨s1, h1, h⟩ := h
  rw [bind_ok_iff] at h
  obtain ⟨s2, h2, h⟩ := h
  cases h
  have e1 : Ext 0 s s1 := (dropRepairs_ext _ _ _ _ _ h1).pre rfl rfl rfl
  exact Ext.post (e1.trans (giveAllOutdated_ext h2)) rfl rfl rfl

theorem giveDecoded_ext {dbg : Bool} {src : DSource} {s s' : Dec} (h : s.giveDecoded dbg src = .ok s') : Ext 1 s s' := by
  unfold Dec.giveDecoded at h
  split at h
  · cases h; exact callback_ext _ _
  · have ho : s.inOrder = true := by simp_all
    split at h
    · have := flush_ext h
      exact OExt.ext ⟨(List.prefix_append _ _).trans this.log, this.inOrder, this.dec⟩ ho _
    · cases h; exact Ext.post (OExt.ext (s := s) ⟨List.prefix_refl s.log, rfl, rfl⟩ ho 1) rfl rfl rfl

theorem insertDecoded_ext {dbg : Bool} {src : DSource} {s s' : Dec} (h : s.insertDecoded dbg src = .ok s') :
    Ext 1 s s' := by
  unfold Dec.insertDecoded at h
  rw [bind_ok_iff] at h
  obtain ⟨_, _, h⟩ := h
  simp only at h
  split at h
  · cases h
  · exact (giveDecoded_ext h).pre rfl rfl rfl

theorem decodeLoop_ext (gf : GF w) (dbg : Bool) (inv : Mat w) (reps : List DRepair) (l : List Nat) (col : Nat)
    (s s' : Dec) (h : decodeLoop gf dbg inv reps col l s = .ok s') : Ext l.length s s' := by
  induction l generalizing col s with
  | nil => unfold decodeLoop at h; cases h; exact Ext.refl _
  | cons x t ih =>
    unfold decodeLoop at h
    rw [bind_ok_iff] at h
    obtain ⟨_, _, h⟩ := h
    rw [bind_ok_iff] at h
    obtain ⟨s1, h1, h⟩ := h
    exact Ext.congr ((insertDecoded_ext h1).trans (ih _ _ h)) (by simp; omega)

theorem fullDecode_ext {gf : GF w} {dbg : Bool} {s s' : Dec} (h : s.fullDecode gf dbg = .ok s') : Ext 0 s s' := by
  unfold Dec.fullDecode at h
  split at h
  · cases h; exact Ext.refl _
  split at h
  · cases h; exact Ext.refl _
  rw [bind_ok_iff] at h
  obtain ⟨_, _, h⟩ := h
  rw [bind_ok_iff] at h
  obtain ⟨_, _, h⟩ := h
  rw [bind_ok_iff] at h
  obtain ⟨_, _, h⟩ := h
  split at h
  · split at h
    · cases h
    · rw [bind_ok_iff] at h
      obtain ⟨_, _, h⟩ := h
      cases h; exact Ext.same rfl rfl rfl
  · simp only at h
    rw [bind_ok_iff] at h
    obtain ⟨s1, h1, h⟩ := h
    cases h
    have e1 := decodeLoop_ext _ _ _ _ _ _ _ _ h1
    have hl : s.missing.keys.length = s.missing.length := by simp [OMap.keys]
    rw [hl] at e1
    refine ⟨e1.log, e1.inOrder, ?_, fun hf => ?_⟩
    · have := e1.dec; simp only; omega
    · have := e1.count hf; simp only; omega

/-- `onSource` accepts the source unless it is outdated or held. -/
def Dec.accepts (s : Dec) (id : Nat) : Bool :=
  !s.lastId.any (fun l => decide (id < l)) && !s.sources.has id

theorem onSource_ext {gf : GF w} {dbg : Bool} {s s' : Dec} {src : DSource} (h : s.onSource gf dbg src = .ok s') :
    Ext (if s.accepts src.id then 1 else 0) s s' := by
  unfold Dec.onSource at h
  unfold Dec.accepts
  split at h
  · next h1 => cases h; rw [h1]; exact Ext.refl _
  · next h1 =>
    split at h
    · next h2 => cases h; rw [h2]; simpa using Ext.refl _
    · next h2 =>
      rw [bind_ok_iff] at h
      obtain ⟨s1, e1, h⟩ := h
      have h1' : (s.lastId.any fun l => decide (src.id < l)) = false := by simpa using h1
      have h2' : s.sources.has src.id = false := by simpa using h2
      rw [h1', h2']
      exact ((add_scan_ext gf dbg _).1 _ _ _ e1).trans (fullDecode_ext h)

theorem onRepair_ext {gf : GF w} {dbg : Bool} {s s' : Dec} {r : DRepair} (h : s.onRepair gf dbg r = .ok s') :
    Ext 0 s s' := by
  unfold Dec.onRepair at h
  rw [bind_ok_iff] at h
  obtain ⟨_, _, h⟩ := h
  split at h
  · split at h
    · cases h; exact Ext.refl _
    split at h
    · cases h; exact Ext.refl _
    rw [bind_ok_iff] at h
    obtain ⟨s1, h1, h⟩ := h
    have e1 := dropOutdated_ext h1
    split at h
    · cases h; exact e1.post rfl rfl rfl
    rw [bind_ok_iff] at h
    obtain ⟨_, _, h⟩ := h
    rw [bind_ok_iff] at h
    obtain ⟨⟨r', m⟩, _, h⟩ := h
    simp only at h
    rw [bind_ok_iff] at h
    obtain ⟨_, _, h⟩ := h
    split at h
    · rw [bind_ok_iff] at h
      obtain ⟨src, _, h⟩ := h
      have e2 := (add_scan_ext gf dbg _).1 _ _ _ h
      refine Ext.congr (Ext.trans (k := 0) (l := 0) e1 ?_) rfl
      refine ⟨e2.log, e2.inOrder, ?_, fun hf => ?_⟩
      · have := e2.dec; simp only at this; omega
      · have := e2.count hf; simp only at this; omega
    · exact e1.trans ((fullDecode_ext h).pre rfl rfl rfl)
  · cases h

end Netcode
