import Verif.Proofs.DecAny

/-!
# The ordering mode does not change what is decoded

Whatever the packets, a decoder that does not order follows the one that orders: same sources, missing
sources, repairs and counters.
-/

set_option linter.unusedSectionVars false

namespace Netcode

open OMap

variable {w : Nat}

/-- Same state, but for the fields used by the delivery. -/
structure SameC (s t : Dec) : Prop where
  repairs : t.repairs = s.repairs
  sources : t.sources = s.sources
  lastId : t.lastId = s.lastId
  missing : t.missing = s.missing
  useless : t.nbUseless = s.nbUseless
  failed : t.nbFailed = s.nbFailed
  dec : t.nbDecoded = s.nbDecoded

theorem SameC.refl (s : Dec) : SameC s s := ⟨rfl, rfl, rfl, rfl, rfl, rfl, rfl⟩

theorem SameC.trans {a b c : Dec} (h : SameC a b) (g : SameC b c) : SameC a c :=
  ⟨g.repairs.trans h.repairs, g.sources.trans h.sources, g.lastId.trans h.lastId, g.missing.trans h.missing,
   g.useless.trans h.useless, g.failed.trans h.failed, g.dec.trans h.dec⟩

theorem SameC.symm {a b : Dec} (h : SameC a b) : SameC b a :=
  ⟨h.repairs.symm, h.sources.symm, h.lastId.symm, h.missing.symm, h.useless.symm, h.failed.symm, h.dec.symm⟩

/-- `t` is the decoder without ordering that corresponds to `s`. -/
structure Like (s t : Dec) : Prop where
  same : SameC s t
  mode : t.inOrder = false

/-- Correspondence of two updated states. -/
macro "like" h:term : tactic => `(tactic| (
  refine ⟨⟨?_, ?_, ?_, ?_, ?_, ?_, ?_⟩, ($h).mode⟩ <;> first
    | rfl
    | simp only [($h).same.repairs, ($h).same.sources, ($h).same.lastId, ($h).same.missing, ($h).same.useless,
        ($h).same.failed, ($h).same.dec]))

theorem callbackOrdered_C {s s' : Dec} {id : Nat} (h : s.callbackOrdered id = .ok s') : SameC s s' := by
  unfold Dec.callbackOrdered at h
  split at h
  · cases h
  · cases h; exact ⟨rfl, rfl, rfl, rfl, rfl, rfl, rfl⟩

theorem flushLoop_C (dbg : Bool) (l : List Nat) (s s' : Dec) (h : flushLoop dbg l s = .ok s') : SameC s s' := by
  induction l generalizing s with
  | nil => cases h; exact SameC.refl _
  | cons id rest ih =>
    unfold flushLoop at h
    rw [bind_ok_iff] at h
    obtain ⟨_, _, h⟩ := h
    rw [bind_ok_iff] at h
    obtain ⟨s1, h1, h⟩ := h
    have e1 := callbackOrdered_C h1
    have e2 : SameC s { s1 with ordered := s1.ordered.erase id, firstMissing := (s1.firstMissing + 1) % 2 ^ 32 } :=
      ⟨e1.1, e1.2, e1.3, e1.4, e1.5, e1.6, e1.7⟩
    cases rest with
    | nil => cases h; exact e2
    | cons nxt t =>
      simp only at h
      split at h
      · cases h; exact e2
      · exact e2.trans (ih _ h)

theorem flush_C {dbg : Bool} {s s' : Dec} (h : s.flush dbg = .ok s') : SameC s s' := by
  unfold Dec.flush at h
  split at h
  · exact flushLoop_C _ _ _ _ h
  · cases h; exact SameC.refl _

theorem giveNew_C {dbg : Bool} {src : DSource} {s s' : Dec} (h : s.giveNew dbg src = .ok s') : SameC s s' := by
  unfold Dec.giveNew at h
  split at h
  · cases h; exact ⟨rfl, rfl, rfl, rfl, rfl, rfl, rfl⟩
  · split at h
    · have e := flush_C h
      exact ⟨e.1, e.2, e.3, e.4, e.5, e.6, e.7⟩
    · cases h; exact SameC.refl _

theorem giveNew_like {dbg : Bool} {src : DSource} {s s' t : Dec} (hl : Like s t) (h : s.giveNew dbg src = .ok s') :
    ∃ t', t.giveNew dbg src = .ok t' ∧ Like s' t' := by
  have hg : t.giveNew dbg src = .ok (t.callback src) := by
    unfold Dec.giveNew; rw [hl.mode]; rfl
  exact ⟨_, hg, ((giveNew_C h).symm.trans hl.same).trans (giveNew_C hg), hl.mode⟩

theorem removeFromAll_like (gf : GF w) (dbg : Bool) (src : DSource) (l : List Nat) (s s' t : Dec)
    (h : removeFromAll gf dbg src l s = .ok s') (hl : Like s t) : ∃ t', removeFromAll gf dbg src l t = .ok t' ∧ Like s' t' := by
  induction l generalizing s t with
  | nil => cases h; exact ⟨t, rfl, hl⟩
  | cons rid rest ih =>
    unfold removeFromAll at h ⊢
    rw [hl.same.repairs]
    split at h
    · cases h
    · rw [bind_ok_iff] at h
      obtain ⟨r', h1, h⟩ := h
      obtain ⟨t', h2, h3⟩ := ih _ { t with repairs := s.repairs.modify rid (fun _ => r') }
        h ⟨⟨rfl, hl.same.2, hl.same.3, hl.same.4, hl.same.5, hl.same.6, hl.same.7⟩, hl.mode⟩
      exact ⟨t', bind_ok_iff.2 ⟨r', h1, h2⟩, h3⟩

theorem addSourceHead_like {gf : GF w} {dbg : Bool} {src : DSource} {s s' t : Dec} (hl : Like s t)
    (h : addSourceHead gf dbg src s = .ok s') : ∃ t', addSourceHead gf dbg src t = .ok t' ∧ Like s' t' := by
  unfold addSourceHead at h ⊢
  rw [bind_ok_iff] at h
  obtain ⟨s1, h1, h⟩ := h
  obtain ⟨t1, g1, l1⟩ := giveNew_like hl h1
  simp only [bind_ok_iff]
  split at h
  · rename_i hm
    cases h
    refine ⟨t1, ⟨t1, g1, ?_⟩, l1⟩
    rw [l1.same.missing, hm]; rfl
  · rename_i links hm
    rw [bind_ok_iff] at h
    obtain ⟨s2, h2, h⟩ := h
    cases h
    obtain ⟨t2, g2, l2⟩ := removeFromAll_like _ _ _ _ _ _ _ h2 l1
    refine ⟨{ t2 with missing := t2.missing.erase src.id }, ⟨t1, g1, ?_⟩, ?_⟩
    · rw [l1.same.missing, hm]
      exact bind_ok_iff.2 ⟨t2, g2, rfl⟩
    · exact ⟨⟨l2.same.1, l2.same.2, l2.same.3, by simp only; rw [l2.same.4], l2.same.5, l2.same.6, l2.same.7⟩, l2.mode⟩

theorem addSourceTail_like {dbg : Bool} {src : DSource} {s s' t : Dec} (hl : Like s t)
    (h : addSourceTail dbg src s = .ok s') : ∃ t', addSourceTail dbg src t = .ok t' ∧ Like s' t' := by
  unfold addSourceTail at h ⊢
  rw [bind_ok_iff] at h
  obtain ⟨_, h1, h⟩ := h
  have hs' : SameC { s with sources := s.sources.emplace src.id src } s' := by
    simp only at h
    split at h <;> (cases h; exact ⟨rfl, rfl, rfl, rfl, rfl, rfl, rfl⟩)
  refine ⟨{ t with sources := t.sources.emplace src.id src }, bind_ok_iff.2 ⟨(), ?_, ?_⟩, ?_, hl.mode⟩
  · rw [hl.same.sources]; exact h1
  · simp only [hl.mode, Bool.false_and, Bool.false_eq_true, ↓reduceIte]; rfl
  · refine hs'.symm.trans ⟨hl.same.1, ?_, hl.same.3, hl.same.4, hl.same.5, hl.same.6, hl.same.7⟩
    simp only; rw [hl.same.2]

theorem add_scan_like (gf : GF w) (dbg : Bool) (fuel : Nat) :
    (∀ src s s' t, Like s t → addSource gf dbg fuel src s = .ok s' →
      ∃ t', addSource gf dbg fuel src t = .ok t' ∧ Like s' t') ∧
    (∀ k s s' t, Like s t → scanMissing gf dbg fuel k s = .ok s' →
      ∃ t', scanMissing gf dbg fuel k t = .ok t' ∧ Like s' t') := by
  induction fuel with
  | zero =>
    constructor
    · intro src s s' t hl h; unfold addSource at h; cases h
    · intro k s s' t hl h
      cases k with
      | none => unfold scanMissing at h ⊢; cases h; exact ⟨t, rfl, hl⟩
      | some k => unfold scanMissing at h; cases h
  | succ fuel ih =>
    constructor
    · intro src s s' t hl h
      unfold addSource at h ⊢
      rw [bind_ok_iff] at h
      obtain ⟨s1, h1, h⟩ := h
      rw [bind_ok_iff] at h
      obtain ⟨s2, h2, h⟩ := h
      obtain ⟨t1, g1, l1⟩ := addSourceHead_like hl h1
      obtain ⟨t2, g2, l2⟩ := ih.2 _ _ _ _ l1 h2
      obtain ⟨t3, g3, l3⟩ := addSourceTail_like l2 h
      refine ⟨t3, bind_ok_iff.2 ⟨t1, g1, bind_ok_iff.2 ⟨t2, ?_, g3⟩⟩, l3⟩
      rw [l1.same.missing]; exact g2
    · intro k s s' t hl h
      cases k with
      | none => unfold scanMissing at h ⊢; cases h; exact ⟨t, rfl, hl⟩
      | some k =>
        rw [scanMissing] at h ⊢
        rw [hl.same.missing, hl.same.repairs, hl.same.lastId, hl.same.sources]
        split at h
        · cases h
        · rename_i rid hm
          split at h
          · cases h
          · rename_i r hr
            split at h
            · rename_i hlen
              rw [bind_ok_iff] at h
              obtain ⟨_, a1, h⟩ := h
              rw [bind_ok_iff] at h
              obtain ⟨_, a2, h⟩ := h
              rw [bind_ok_iff] at h
              obtain ⟨src, a3, h⟩ := h
              simp only at h
              rw [bind_ok_iff] at h
              obtain ⟨s1, h1, h⟩ := h
              have hl2 : Like { s with nbDecoded := s.nbDecoded + 1, repairs := s.repairs.erase rid,
                                       missing := s.missing.erase k }
                  { t with nbDecoded := t.nbDecoded + 1, repairs := s.repairs.erase rid,
                           missing := s.missing.erase k, sources := s.sources, lastId := s.lastId } := by
                like hl
              obtain ⟨t1, g1, l1⟩ := ih.1 _ _ _ _ hl2 h1
              obtain ⟨t2, g2, l2⟩ := ih.2 _ _ _ _ l1 h
              refine ⟨t2, ?_, l2⟩
              rw [if_pos hlen]
              refine bind_ok_iff.2 ⟨(), a1, bind_ok_iff.2 ⟨(), a2, bind_ok_iff.2 ⟨src, a3, ?_⟩⟩⟩
              exact bind_ok_iff.2 ⟨t1, g1, g2⟩
            · rename_i hlen
              rw [if_neg hlen]
              exact ih.2 _ _ _ _ hl h
        · exact ih.2 _ _ _ _ hl h

theorem dropRepairs_like (dbg : Bool) (id : Nat) (l : OMap DRepair) (s s' t : Dec)
    (h : dropRepairs dbg id l s = .ok s') (hl : Like s t) : ∃ t', dropRepairs dbg id l t = .ok t' ∧ Like s' t' := by
  induction l generalizing s t with
  | nil => cases h; exact ⟨t, rfl, hl⟩
  | cons p rest ih =>
    obtain ⟨rid, r⟩ := p
    unfold dropRepairs at h ⊢
    rw [bind_ok_iff] at h
    obtain ⟨_, a1, h⟩ := h
    rw [a1]
    simp only [bind, Except.bind]
    split at h
    · cases h
    · split at h
      · rename_i hx
        rw [bind_ok_iff] at h
        obtain ⟨_, a0, h⟩ := h
        rw [bind_ok_iff] at h
        obtain ⟨m, a2, h⟩ := h
        obtain ⟨t', g, l⟩ := ih _ { t with missing := m, repairs := s.repairs.erase rid }
          h ⟨⟨rfl, hl.same.2, hl.same.3, rfl, hl.same.5, hl.same.6, hl.same.7⟩, hl.mode⟩
        refine ⟨t', ?_, l⟩
        rw [if_pos hx, hl.same.missing, hl.same.repairs, a0, a2]
        exact g
      · rename_i hx
        rw [if_neg hx]
        exact ih _ _ h hl

theorem giveOutdated_C (l : List Nat) (s s' : Dec) (h : giveOutdated l s = .ok s') : SameC s s' := by
  induction l generalizing s with
  | nil => cases h; exact SameC.refl _
  | cons k t ih =>
    unfold giveOutdated at h
    rw [bind_ok_iff] at h
    obtain ⟨s1, h1, h⟩ := h
    have e1 := callbackOrdered_C h1
    have e2 := ih _ h
    exact e1.trans ⟨e2.1, e2.2, e2.3, e2.4, e2.5, e2.6, e2.7⟩

theorem giveAllOutdated_C {dbg : Bool} {id : Nat} {s s' : Dec} (h : s.giveAllOutdated dbg id = .ok s') : SameC s s' := by
  unfold Dec.giveAllOutdated at h
  split at h
  · rw [bind_ok_iff] at h
    obtain ⟨s1, h1, h⟩ := h
    have e1 := giveOutdated_C _ _ _ h1
    have e2 := flush_C h
    exact e1.trans ⟨e2.1, e2.2, e2.3, e2.4, e2.5, e2.6, e2.7⟩
  · cases h; exact SameC.refl _

theorem dropOutdated_like {dbg : Bool} {id : Nat} {s s' t : Dec} (hl : Like s t) (h : s.dropOutdated dbg id = .ok s') :
    ∃ t', t.dropOutdated dbg id = .ok t' ∧ Like s' t' := by
  unfold Dec.dropOutdated at h ⊢
  simp only at h ⊢
  rw [bind_ok_iff] at h
  obtain ⟨s1, h1, h⟩ := h
  rw [bind_ok_iff] at h
  obtain ⟨s2, h2, h⟩ := h
  cases h
  obtain ⟨t1, g1, l1⟩ := dropRepairs_like _ _ _ _ _ { t with lastId := some id } h1
    ⟨⟨hl.same.1, hl.same.2, rfl, hl.same.4, hl.same.5, hl.same.6, hl.same.7⟩, hl.mode⟩
  have l2 : Like s2 t1 := ⟨(giveAllOutdated_C h2).symm.trans l1.same, l1.mode⟩
  refine ⟨{ t1 with sources := t1.sources.eraseBelow id, missing := t1.missing.eraseBelow id },
    bind_ok_iff.2 ⟨t1, ?_, bind_ok_iff.2 ⟨t1, ?_, rfl⟩⟩, ⟨l2.same.1, ?_, l2.same.3, ?_, l2.same.5, l2.same.6, l2.same.7⟩,
    l2.mode⟩
  · rw [← hl.same.repairs] at g1; exact g1
  · unfold Dec.giveAllOutdated; rw [l1.mode]; rfl
  · simp only; rw [l2.same.2]
  · simp only; rw [l2.same.4]

theorem giveDecoded_C {dbg : Bool} {src : DSource} {s s' : Dec} (h : s.giveDecoded dbg src = .ok s') : SameC s s' := by
  unfold Dec.giveDecoded at h
  split at h
  · cases h; exact ⟨rfl, rfl, rfl, rfl, rfl, rfl, rfl⟩
  · split at h
    · have e := flush_C h
      exact ⟨e.1, e.2, e.3, e.4, e.5, e.6, e.7⟩
    · cases h; exact ⟨rfl, rfl, rfl, rfl, rfl, rfl, rfl⟩

theorem insertDecoded_like {dbg : Bool} {src : DSource} {s s' t : Dec} (hl : Like s t)
    (h : s.insertDecoded dbg src = .ok s') : ∃ t', t.insertDecoded dbg src = .ok t' ∧ Like s' t' := by
  unfold Dec.insertDecoded at h ⊢
  simp only at h ⊢
  rw [bind_ok_iff] at h
  obtain ⟨_, a1, h⟩ := h
  rw [hl.same.sources, a1]
  simp only [bind, Except.bind]
  split at h
  · cases h
  · rename_i v hv
    have e := giveDecoded_C h
    have hg : ∀ u : Dec, u.inOrder = false → Dec.giveDecoded dbg v u = .ok (u.callback v) := by
      intro u hu; unfold Dec.giveDecoded; rw [hu]; rfl
    refine ⟨_, hg _ hl.mode, e.symm.trans ?_, hl.mode⟩
    exact ⟨hl.same.1, rfl, hl.same.3, hl.same.4, hl.same.5, hl.same.6, hl.same.7⟩

theorem decodeLoop_like (gf : GF w) (dbg : Bool) (inv : Mat w) (reps : List DRepair) (l : List Nat) (col : Nat)
    (s s' t : Dec) (hl : Like s t) (h : decodeLoop gf dbg inv reps col l s = .ok s') :
    ∃ t', decodeLoop gf dbg inv reps col l t = .ok t' ∧ Like s' t' := by
  induction l generalizing col s t with
  | nil => unfold decodeLoop at h ⊢; cases h; exact ⟨t, rfl, hl⟩
  | cons x rest ih =>
    unfold decodeLoop at h ⊢
    rw [bind_ok_iff] at h
    obtain ⟨sym, a1, h⟩ := h
    rw [bind_ok_iff] at h
    obtain ⟨s1, h1, h⟩ := h
    obtain ⟨t1, g1, l1⟩ := insertDecoded_like hl h1
    obtain ⟨t2, g2, l2⟩ := ih _ _ _ l1 h
    exact ⟨t2, bind_ok_iff.2 ⟨sym, a1, bind_ok_iff.2 ⟨t1, g1, g2⟩⟩, l2⟩

theorem fullDecode_like {gf : GF w} {dbg : Bool} {s s' t : Dec} (hl : Like s t) (h : s.fullDecode gf dbg = .ok s') :
    ∃ t', t.fullDecode gf dbg = .ok t' ∧ Like s' t' := by
  unfold Dec.fullDecode at h ⊢
  rw [hl.same.repairs, hl.same.missing]
  split at h
  · rename_i hc; rw [if_pos hc]; cases h; exact ⟨t, rfl, hl⟩
  rename_i hc; rw [if_neg hc]
  split at h
  · rename_i hc; rw [if_pos hc]; cases h; exact ⟨t, rfl, hl⟩
  rename_i hc; rw [if_neg hc]
  rw [bind_ok_iff] at h
  obtain ⟨_, a1, h⟩ := h
  rw [bind_ok_iff] at h
  obtain ⟨_, a2, h⟩ := h
  rw [bind_ok_iff] at h
  obtain ⟨_, a3, h⟩ := h
  rw [a1, a2, a3]
  simp only [bind, Except.bind]
  split at h
  · rename_i c hinv
    split at h
    · cases h
    · rename_i hr
      rw [bind_ok_iff] at h
      obtain ⟨_, a4, h⟩ := h
      cases h
      rw [a4]
      exact ⟨_, rfl, ⟨rfl, hl.same.2, hl.same.3, rfl, hl.same.5, by simp only; rw [hl.same.6], hl.same.7⟩, hl.mode⟩
  · rename_i inv hinv
    simp only at h ⊢
    rw [bind_ok_iff] at h
    obtain ⟨s1, h1, h⟩ := h
    cases h
    obtain ⟨t1, g1, l1⟩ := decodeLoop_like _ _ _ _ _ _ _ _ _ hl h1
    rw [g1]
    exact ⟨_, rfl, ⟨rfl, l1.same.2, l1.same.3, rfl, l1.same.5, l1.same.6, by simp only; rw [l1.same.7]⟩, l1.mode⟩

theorem onSource_like {gf : GF w} {dbg : Bool} {s s' t : Dec} {src : DSource} (hl : Like s t)
    (h : s.onSource gf dbg src = .ok s') : ∃ t', t.onSource gf dbg src = .ok t' ∧ Like s' t' := by
  unfold Dec.onSource at h ⊢
  rw [hl.same.lastId, hl.same.sources]
  split at h
  · rename_i hc; rw [if_pos hc]; cases h; exact ⟨t, rfl, hl⟩
  rename_i hc; rw [if_neg hc]
  split at h
  · rename_i hc; rw [if_pos hc]; cases h; exact ⟨t, rfl, hl⟩
  rename_i hc; rw [if_neg hc]
  rw [bind_ok_iff] at h
  obtain ⟨s1, h1, h⟩ := h
  obtain ⟨t1, g1, l1⟩ := (add_scan_like gf dbg _).1 _ _ _ _ hl h1
  obtain ⟨t2, g2, l2⟩ := fullDecode_like l1 h
  refine ⟨t2, bind_ok_iff.2 ⟨t1, ?_, g2⟩, l2⟩
  have : t.fuel = s.fuel := by unfold Dec.fuel; rw [hl.same.repairs, hl.same.missing]
  rw [this]; exact g1

theorem onRepair_like {gf : GF w} {dbg : Bool} {s s' t : Dec} {r : DRepair} (hl : Like s t)
    (h : s.onRepair gf dbg r = .ok s') : ∃ t', t.onRepair gf dbg r = .ok t' ∧ Like s' t' := by
  unfold Dec.onRepair at h ⊢
  rw [bind_ok_iff] at h
  obtain ⟨_, a1, h⟩ := h
  rw [a1]
  simp only [bind, Except.bind]
  rw [hl.same.lastId, hl.same.repairs]
  split at h
  · split at h
    · rename_i hc; rw [if_pos hc]; cases h; exact ⟨t, rfl, hl⟩
    rename_i hc; rw [if_neg hc]
    split at h
    · rename_i hc; rw [if_pos hc]; cases h; exact ⟨t, rfl, hl⟩
    rename_i hc; rw [if_neg hc]
    rw [bind_ok_iff] at h
    obtain ⟨s1, h1, h⟩ := h
    obtain ⟨t1, g1, l1⟩ := dropOutdated_like hl h1
    rw [g1]
    simp only
    rw [l1.same.sources]
    split at h
    · rename_i hc; rw [if_pos hc]; cases h
      exact ⟨_, rfl, by like l1⟩
    rename_i hc; rw [if_neg hc]
    rw [bind_ok_iff] at h
    obtain ⟨_, a0, h⟩ := h
    rw [bind_ok_iff] at h
    obtain ⟨⟨r', m⟩, a2, h⟩ := h
    rw [l1.same.missing, show linksAlive t1.repairs s1.missing _ = linksAlive s1.repairs s1.missing _ from by rw [l1.same.repairs], a0]
    simp only
    rw [a2]
    simp only at h ⊢
    rw [bind_ok_iff] at h
    obtain ⟨_, a3, h⟩ := h
    rw [a3]
    simp only
    split at h
    · rename_i hc; rw [if_pos hc]
      rw [bind_ok_iff] at h
      obtain ⟨src, a4, h⟩ := h
      rw [a4]
      simp only
      have hl2 : Like
          { s1 with nbDecoded := s1.nbDecoded + 1, missing := m.erase src.id,
                    repairs := (s1.repairs.emplace r'.id r').erase r'.id }
          { t1 with nbDecoded := t1.nbDecoded + 1, missing := m.erase src.id, sources := s1.sources,
                    repairs := (t1.repairs.emplace r'.id r').erase r'.id } := by
        like l1
      obtain ⟨t2, g2, l2⟩ := (add_scan_like gf dbg _).1 _ _ _ _ hl2 h
      refine ⟨t2, ?_, l2⟩
      refine Eq.trans ?_ g2
      congr 1
      simp only [Dec.fuel, l1.same.1]
    · rename_i hc; rw [if_neg hc]
      exact fullDecode_like (by like l1) h
  · cases h

end Netcode
