import Verif.Proofs.DecProps
import Verif.Proofs.Ordered

/-!
# What a decoder with ordering hands over, the one without hands over too

The simulation of `Proofs/DecMode.lean`, with the data: whatever the packets, what `s` (with ordering) handed over or holds was
handed over by `t` (without).
-/

set_option linter.unusedSectionVars false

namespace Netcode

open OMap

variable {w : Nat}

/-- The datum was handed over. -/
def Dec.Gave (t : Dec) (i : Nat) (b : List Byte) : Prop := ∃ ev ∈ t.log, ev.id = i ∧ ev.data = b

theorem Dec.Gave.mono {t t' : Dec} {i : Nat} {b : List Byte} (h : t.Gave i b) (hp : t.log <+: t'.log) : t'.Gave i b := by
  obtain ⟨ev, he, h1, h2⟩ := h
  exact ⟨ev, hp.subset he, h1, h2⟩

/-- `t` is the decoder without ordering that corresponds to `s`, and handed over what `s` handed over or holds. -/
structure Cov (s t : Dec) : Prop where
  same : SameC s t
  mode : t.inOrder = false
  log : ∀ ev ∈ s.log, t.Gave ev.id ev.data
  src : ∀ k x, s.sources.get? k = some x → t.Gave x.id x.sym

/-- Correspondence of two updated states. -/
macro "covl" h:term : tactic => `(tactic| (
  refine ⟨⟨?_, ?_, ?_, ?_, ?_, ?_, ?_⟩, ($h).mode, ($h).log, ($h).src⟩ <;> first
    | rfl
    | simp only [($h).same.repairs, ($h).same.sources, ($h).same.lastId, ($h).same.missing, ($h).same.useless,
        ($h).same.failed, ($h).same.dec]))

theorem Cov.held {s s' t t' : Dec} (h : Cov s t) (hf : FromHeld s s') (hp : t.log <+: t'.log) : ∀ ev ∈ s'.log, t'.Gave ev.id ev.data := by
  intro ev he
  have hsplit : s'.log = s.log ++ s'.log.drop s.log.length := by
    obtain ⟨l, hl⟩ := hf.pre
    rw [← hl]; simp
  rw [hsplit, List.mem_append] at he
  rcases he with he | he
  · exact (h.log ev he).mono hp
  · obtain ⟨k, hk⟩ := hf.new ev he
    exact (h.src k _ hk).mono hp

theorem giveNew_cov {dbg : Bool} {src : DSource} {s s' t : Dec} (hl : Cov s t) (h : s.giveNew dbg src = .ok s') :
    ∃ t', t.giveNew dbg src = .ok t' ∧ Cov s' t' ∧ t'.Gave src.id src.sym := by
  have hg : t.giveNew dbg src = .ok (t.callback src) := by
    unfold Dec.giveNew; rw [hl.mode]; rfl
  have hp : t.log <+: (t.callback src).log := List.prefix_append _ _
  have hgave : (t.callback src).Gave src.id src.sym :=
    ⟨_, List.mem_append_right _ (List.mem_singleton.2 rfl), rfl, rfl⟩
  have hC := giveNew_C h
  refine ⟨_, hg, ⟨(hC.symm.trans hl.same).trans (giveNew_C hg), hl.mode, ?_, fun k x hx => ?_⟩, hgave⟩
  · have hcb : ∀ ev ∈ (s.callback src).log, (t.callback src).Gave ev.id ev.data := by
      intro ev he
      rcases List.mem_append.1 he with he | he
      · exact (hl.log ev he).mono hp
      · rw [List.mem_singleton] at he; subst he; exact hgave
    unfold Dec.giveNew at h
    split at h
    · cases h; exact hcb
    · split at h
      · have hf := flush_fromHeld h
        have hc0 : Cov { s.callback src with firstMissing := (s.firstMissing + 1) % 2 ^ 32 } (t.callback src) :=
          ⟨⟨hl.same.1, hl.same.2, hl.same.3, hl.same.4, hl.same.5, hl.same.6, hl.same.7⟩, hl.mode, hcb,
            fun k x hx => (hl.src k x hx).mono hp⟩
        exact hc0.held hf (List.prefix_refl _)
      · cases h
        exact fun ev he => (hl.log ev he).mono hp
  · rw [hC.sources] at hx
    exact (hl.src k x hx).mono hp

theorem removeFromAll_cov (gf : GF w) (dbg : Bool) (src : DSource) (l : List Nat) (s s' t : Dec)
    (h : removeFromAll gf dbg src l s = .ok s') (hl : Cov s t) : ∃ t', removeFromAll gf dbg src l t = .ok t' ∧ Cov s' t' := by
  induction l generalizing s t with
  | nil => cases h; exact ⟨t, rfl, hl⟩
  | cons rid rest ih =>
    unfold removeFromAll at h ⊢
    rw [hl.same.repairs]
    split at h
    · cases h
    · rw [bind_ok_iff] at h
      obtain ⟨r', h1, h⟩ := h
      obtain ⟨t', h2, h3⟩ := ih _ { t with repairs := s.repairs.modify rid (fun _ => r') }
        h ⟨⟨rfl, hl.same.2, hl.same.3, hl.same.4, hl.same.5, hl.same.6, hl.same.7⟩, hl.mode, hl.log, hl.src⟩
      exact ⟨t', bind_ok_iff.2 ⟨r', h1, h2⟩, h3⟩

theorem addSourceHead_cov {gf : GF w} {dbg : Bool} {src : DSource} {s s' t : Dec} (hl : Cov s t)
    (h : addSourceHead gf dbg src s = .ok s') : ∃ t', addSourceHead gf dbg src t = .ok t' ∧ Cov s' t' ∧ t'.Gave src.id src.sym := by
  unfold addSourceHead at h ⊢
  rw [bind_ok_iff] at h
  obtain ⟨s1, h1, h⟩ := h
  obtain ⟨t1, g1, l1, v1⟩ := giveNew_cov hl h1
  simp only [bind_ok_iff]
  split at h
  · rename_i hm
    cases h
    refine ⟨t1, ⟨t1, g1, ?_⟩, l1, v1⟩
    rw [l1.same.missing, hm]; rfl
  · rename_i links hm
    rw [bind_ok_iff] at h
    obtain ⟨s2, h2, h⟩ := h
    cases h
    obtain ⟨t2, g2, l2⟩ := removeFromAll_cov _ _ _ _ _ _ _ h2 l1
    refine ⟨{ t2 with missing := t2.missing.erase src.id }, ⟨t1, g1, ?_⟩, ?_, ?_⟩
    · rw [l1.same.missing, hm]
      exact bind_ok_iff.2 ⟨t2, g2, rfl⟩
    · exact ⟨⟨l2.same.1, l2.same.2, l2.same.3, by simp only; rw [l2.same.4], l2.same.5, l2.same.6, l2.same.7⟩, l2.mode, l2.log, l2.src⟩
    · exact v1.mono (removeFromAll_ext gf dbg src links t1 t2 g2).log

theorem emplace_cov {s t : Dec} (hl : Cov s t) (src : DSource) (hg : t.Gave src.id src.sym) :
    Cov { s with sources := s.sources.emplace src.id src } { t with sources := t.sources.emplace src.id src } := by
  refine ⟨⟨hl.same.1, by simp only; rw [hl.same.2], hl.same.3, hl.same.4, hl.same.5, hl.same.6, hl.same.7⟩, hl.mode, hl.log, fun k x hx => ?_⟩
  rcases get?_emplace_cases _ _ _ _ _ hx with hx | ⟨_, rfl⟩
  · exact hl.src k x hx
  · exact hg

theorem addSourceTail_cov {dbg : Bool} {src : DSource} {s s' t : Dec} (hl : Cov s t) (hg : t.Gave src.id src.sym)
    (h : addSourceTail dbg src s = .ok s') : ∃ t', addSourceTail dbg src t = .ok t' ∧ Cov s' t' := by
  have e := emplace_cov hl src hg
  unfold addSourceTail at h ⊢
  rw [bind_ok_iff] at h
  obtain ⟨_, h1, h⟩ := h
  refine ⟨{ t with sources := t.sources.emplace src.id src }, bind_ok_iff.2 ⟨(), ?_, ?_⟩, ?_⟩
  · rw [hl.same.sources]; exact h1
  · simp only [hl.mode, Bool.false_and, Bool.false_eq_true, ↓reduceIte]; rfl
  · simp only at h
    split at h <;> (cases h; exact ⟨⟨e.same.1, e.same.2, e.same.3, e.same.4, e.same.5, e.same.6, e.same.7⟩, e.mode, e.log, e.src⟩)

theorem add_scan_cov (gf : GF w) (dbg : Bool) (fuel : Nat) :
    (∀ src s s' t, Cov s t → addSource gf dbg fuel src s = .ok s' →
      ∃ t', addSource gf dbg fuel src t = .ok t' ∧ Cov s' t') ∧
    (∀ k s s' t, Cov s t → scanMissing gf dbg fuel k s = .ok s' →
      ∃ t', scanMissing gf dbg fuel k t = .ok t' ∧ Cov s' t') := by
  induction fuel with
  | zero =>
    constructor
    · intro src s s' t hl h; unfold addSource at h; cases h
    · intro k s s' t hl h
      cases k with
      | none => unfold scanMissing at h ⊢; cases h; exact ⟨t, rfl, hl⟩
      | some k => unfold scanMissing at h; cases h
  | succ fuel ih =>
    constructor
    · intro src s s' t hl h
      unfold addSource at h ⊢
      rw [bind_ok_iff] at h
      obtain ⟨s1, h1, h⟩ := h
      rw [bind_ok_iff] at h
      obtain ⟨s2, h2, h⟩ := h
      obtain ⟨t1, g1, l1, v1⟩ := addSourceHead_cov hl h1
      obtain ⟨t2, g2, l2⟩ := ih.2 _ _ _ _ l1 h2
      obtain ⟨t3, g3, l3⟩ := addSourceTail_cov l2 (v1.mono ((add_scan_ext gf dbg fuel).2 _ _ _ g2).log) h
      refine ⟨t3, bind_ok_iff.2 ⟨t1, g1, bind_ok_iff.2 ⟨t2, ?_, g3⟩⟩, l3⟩
      rw [l1.same.missing]; exact g2
    · intro k s s' t hl h
      cases k with
      | none => unfold scanMissing at h ⊢; cases h; exact ⟨t, rfl, hl⟩
      | some k =>
        rw [scanMissing] at h ⊢
        rw [hl.same.missing, hl.same.repairs, hl.same.lastId, hl.same.sources]
        split at h
        · cases h
        · rename_i rid hm
          split at h
          · cases h
          · rename_i r hr
            split at h
            · rename_i hlen
              rw [bind_ok_iff] at h
              obtain ⟨_, a1, h⟩ := h
              rw [bind_ok_iff] at h
              obtain ⟨_, a2, h⟩ := h
              rw [bind_ok_iff] at h
              obtain ⟨src, a3, h⟩ := h
              simp only at h
              rw [bind_ok_iff] at h
              obtain ⟨s1, h1, h⟩ := h
              have hl2 : Cov { s with nbDecoded := s.nbDecoded + 1, repairs := s.repairs.erase rid,
                                       missing := s.missing.erase k }
                  { t with nbDecoded := t.nbDecoded + 1, repairs := s.repairs.erase rid,
                           missing := s.missing.erase k, sources := s.sources, lastId := s.lastId } := by
                covl hl
              obtain ⟨t1, g1, l1⟩ := ih.1 _ _ _ _ hl2 h1
              obtain ⟨t2, g2, l2⟩ := ih.2 _ _ _ _ l1 h
              refine ⟨t2, ?_, l2⟩
              rw [if_pos hlen]
              refine bind_ok_iff.2 ⟨(), a1, bind_ok_iff.2 ⟨(), a2, bind_ok_iff.2 ⟨src, a3, ?_⟩⟩⟩
              exact bind_ok_iff.2 ⟨t1, g1, g2⟩
            · rename_i hlen
              rw [if_neg hlen]
              exact ih.2 _ _ _ _ hl h
        · exact ih.2 _ _ _ _ hl h

theorem dropRepairs_cov (dbg : Bool) (id : Nat) (l : OMap DRepair) (s s' t : Dec)
    (h : dropRepairs dbg id l s = .ok s') (hl : Cov s t) : ∃ t', dropRepairs dbg id l t = .ok t' ∧ Cov s' t' := by
  induction l generalizing s t with
  | nil => cases h; exact ⟨t, rfl, hl⟩
  | cons p rest ih =>
    obtain ⟨rid, r⟩ := p
    unfold dropRepairs at h ⊢
    rw [bind_ok_iff] at h
    obtain ⟨_, a1, h⟩ := h
    rw [a1]
    simp only [bind, Except.bind]
    split at h
    · cases h
    · split at h
      · rename_i hx
        rw [bind_ok_iff] at h
        obtain ⟨_, a0, h⟩ := h
        rw [bind_ok_iff] at h
        obtain ⟨m, a2, h⟩ := h
        obtain ⟨t', g, l⟩ := ih _ { t with missing := m, repairs := s.repairs.erase rid }
          h ⟨⟨rfl, hl.same.2, hl.same.3, rfl, hl.same.5, hl.same.6, hl.same.7⟩, hl.mode, hl.log, hl.src⟩
        refine ⟨t', ?_, l⟩
        rw [if_pos hx, hl.same.missing, hl.same.repairs, a0, a2]
        exact g
      · rename_i hx
        rw [if_neg hx]
        exact ih _ _ h hl

theorem dropOutdated_cov {dbg : Bool} {id : Nat} {s s' t : Dec} (hl : Cov s t) (h : s.dropOutdated dbg id = .ok s') :
    ∃ t', t.dropOutdated dbg id = .ok t' ∧ Cov s' t' := by
  unfold Dec.dropOutdated at h ⊢
  simp only at h ⊢
  rw [bind_ok_iff] at h
  obtain ⟨s1, h1, h⟩ := h
  rw [bind_ok_iff] at h
  obtain ⟨s2, h2, h⟩ := h
  cases h
  obtain ⟨t1, g1, l1⟩ := dropRepairs_cov _ _ _ _ _ { t with lastId := some id } h1
    ⟨⟨hl.same.1, hl.same.2, rfl, hl.same.4, hl.same.5, hl.same.6, hl.same.7⟩, hl.mode, hl.log, hl.src⟩
  have hf : FromHeld s1 s2 := by
    unfold Dec.giveAllOutdated at h2
    split at h2
    · rw [bind_ok_iff] at h2
      obtain ⟨s3, h3, h2⟩ := h2
      exact (giveOutdated_fromHeld _ _ _ h3).trans ((flush_fromHeld h2).pre' rfl rfl)
    · cases h2; exact FromHeld.refl rfl rfl
  have l2 : Cov s2 t1 := ⟨(giveAllOutdated_C h2).symm.trans l1.same, l1.mode, l1.held hf (List.prefix_refl _),
    fun k x hx => l1.src k x (by rw [← hf.src]; exact hx)⟩
  refine ⟨{ t1 with sources := t1.sources.eraseBelow id, missing := t1.missing.eraseBelow id },
    bind_ok_iff.2 ⟨t1, ?_, bind_ok_iff.2 ⟨t1, ?_, rfl⟩⟩, ⟨l2.same.1, ?_, l2.same.3, ?_, l2.same.5, l2.same.6, l2.same.7⟩,
    l2.mode, l2.log, fun k x hx => l2.src k x ?_⟩
  · rw [← hl.same.repairs] at g1; exact g1
  · unfold Dec.giveAllOutdated; rw [l1.mode]; rfl
  · simp only; rw [l2.same.2]
  · simp only; rw [l2.same.4]
  · rw [OMap.get?_eraseBelow] at hx
    split at hx
    · exact hx
    · cases hx

theorem insertDecoded_cov {dbg : Bool} {src : DSource} {s s' t : Dec} (hl : Cov s t)
    (h : s.insertDecoded dbg src = .ok s') : ∃ t', t.insertDecoded dbg src = .ok t' ∧ Cov s' t' := by
  unfold Dec.insertDecoded at h ⊢
  simp only at h ⊢
  rw [bind_ok_iff] at h
  obtain ⟨_, a1, h⟩ := h
  rw [hl.same.sources, a1]
  simp only [bind, Except.bind]
  split at h
  · cases h
  · rename_i v hv
    have e := giveDecoded_C h
    have hg : ∀ u : Dec, u.inOrder = false → Dec.giveDecoded dbg v u = .ok (u.callback v) := by
      intro u hu; unfold Dec.giveDecoded; rw [hu]; rfl
    refine ⟨_, hg _ hl.mode, ?_⟩
    have hgave : ({ t with sources := s.sources.emplace src.id src } : Dec).callback v |>.Gave v.id v.sym :=
      ⟨_, List.mem_append_right _ (List.mem_singleton.2 rfl), rfl, rfl⟩
    have hp : t.log <+: (({ t with sources := s.sources.emplace src.id src } : Dec).callback v).log := List.prefix_append _ _
    have hsrc : ∀ k x, (s.sources.emplace src.id src).get? k = some x →
        (({ t with sources := s.sources.emplace src.id src } : Dec).callback v).Gave x.id x.sym := by
      intro k x hx
      rcases get?_emplace_cases _ _ _ _ _ hx with hx' | ⟨rfl, rfl⟩
      · exact (hl.src k x hx').mono hp
      · rw [hx] at hv; cases hv; exact hgave
    have hcb : ∀ ev ∈ (({ s with sources := s.sources.emplace src.id src } : Dec).callback v).log,
        (({ t with sources := s.sources.emplace src.id src } : Dec).callback v).Gave ev.id ev.data := by
      intro ev he
      rcases List.mem_append.1 he with he | he
      · exact (hl.log ev he).mono hp
      · rw [List.mem_singleton] at he; subst he; exact hgave
    refine ⟨e.symm.trans ⟨hl.same.1, rfl, hl.same.3, hl.same.4, hl.same.5, hl.same.6, hl.same.7⟩, hl.mode, ?_,
      fun k x hx => hsrc k x (by rw [e.sources] at hx; exact hx)⟩
    unfold Dec.giveDecoded at h
    split at h
    · cases h; exact hcb
    · split at h
      · have hc0 : Cov { ({ s with sources := s.sources.emplace src.id src } : Dec).callback v with firstMissing := (s.firstMissing + 1) % 2 ^ 32 }
            (({ t with sources := s.sources.emplace src.id src } : Dec).callback v) :=
          ⟨⟨hl.same.1, rfl, hl.same.3, hl.same.4, hl.same.5, hl.same.6, hl.same.7⟩, hl.mode, hcb, hsrc⟩
        exact hc0.held (flush_fromHeld h) (List.prefix_refl _)
      · cases h
        exact fun ev he => (hl.log ev he).mono hp

theorem decodeLoop_cov (gf : GF w) (dbg : Bool) (inv : Mat w) (reps : List DRepair) (l : List Nat) (col : Nat)
    (s s' t : Dec) (hl : Cov s t) (h : decodeLoop gf dbg inv reps col l s = .ok s') :
    ∃ t', decodeLoop gf dbg inv reps col l t = .ok t' ∧ Cov s' t' := by
  induction l generalizing col s t with
  | nil => unfold decodeLoop at h ⊢; cases h; exact ⟨t, rfl, hl⟩
  | cons x rest ih =>
    unfold decodeLoop at h ⊢
    rw [bind_ok_iff] at h
    obtain ⟨sym, a1, h⟩ := h
    rw [bind_ok_iff] at h
    obtain ⟨s1, h1, h⟩ := h
    obtain ⟨t1, g1, l1⟩ := insertDecoded_cov hl h1
    obtain ⟨t2, g2, l2⟩ := ih _ _ _ l1 h
    exact ⟨t2, bind_ok_iff.2 ⟨sym, a1, bind_ok_iff.2 ⟨t1, g1, g2⟩⟩, l2⟩

theorem fullDecode_cov {gf : GF w} {dbg : Bool} {s s' t : Dec} (hl : Cov s t) (h : s.fullDecode gf dbg = .ok s') :
    ∃ t', t.fullDecode gf dbg = .ok t' ∧ Cov s' t' := by
  unfold Dec.fullDecode at h ⊢
  rw [hl.same.repairs, hl.same.missing]
  split at h
  · rename_i hc; rw [if_pos hc]; cases h; exact ⟨t, rfl, hl⟩
  rename_i hc; rw [if_neg hc]
  split at h
  · rename_i hc; rw [if_pos hc]; cases h; exact ⟨t, rfl, hl⟩
  rename_i hc; rw [if_neg hc]
  rw [bind_ok_iff] at h
  obtain ⟨_, a1, h⟩ := h
  rw [bind_ok_iff] at h
  obtain ⟨_, a2, h⟩ := h
  rw [bind_ok_iff] at h
  obtain ⟨_, a3, h⟩ := h
  rw [a1, a2, a3]
  simp only [bind, Except.bind]
  split at h
  · rename_i c hinv
    split at h
    · cases h
    · rename_i hr
      rw [bind_ok_iff] at h
      obtain ⟨_, a4, h⟩ := h
      cases h
      rw [a4]
      exact ⟨_, rfl, ⟨rfl, hl.same.2, hl.same.3, rfl, hl.same.5, by simp only; rw [hl.same.6], hl.same.7⟩, hl.mode, hl.log, hl.src⟩
  · rename_i inv hinv
    simp only at h ⊢
    rw [bind_ok_iff] at h
    obtain ⟨s1, h1, h⟩ := h
    cases h
    obtain ⟨t1, g1, l1⟩ := decodeLoop_cov _ _ _ _ _ _ _ _ _ hl h1
    rw [g1]
    exact ⟨_, rfl, ⟨rfl, l1.same.2, l1.same.3, rfl, l1.same.5, l1.same.6, by simp only; rw [l1.same.7]⟩, l1.mode, l1.log, l1.src⟩

theorem onSource_cov {gf : GF w} {dbg : Bool} {s s' t : Dec} {src : DSource} (hl : Cov s t)
    (h : s.onSource gf dbg src = .ok s') : ∃ t', t.onSource gf dbg src = .ok t' ∧ Cov s' t' := by
  unfold Dec.onSource at h ⊢
  rw [hl.same.lastId, hl.same.sources]
  split at h
  · rename_i hc; rw [if_pos hc]; cases h; exact ⟨t, rfl, hl⟩
  rename_i hc; rw [if_neg hc]
  split at h
  · rename_i hc; rw [if_pos hc]; cases h; exact ⟨t, rfl, hl⟩
  rename_i hc; rw [if_neg hc]
  rw [bind_ok_iff] at h
  obtain ⟨s1, h1, h⟩ := h
  obtain ⟨t1, g1, l1⟩ := (add_scan_cov gf dbg _).1 _ _ _ _ hl h1
  obtain ⟨t2, g2, l2⟩ := fullDecode_cov l1 h
  refine ⟨t2, bind_ok_iff.2 ⟨t1, ?_, g2⟩, l2⟩
  have : t.fuel = s.fuel := by unfold Dec.fuel; rw [hl.same.repairs, hl.same.missing]
  rw [this]; exact g1

theorem onRepair_cov {gf : GF w} {dbg : Bool} {s s' t : Dec} {r : DRepair} (hl : Cov s t)
    (h : s.onRepair gf dbg r = .ok s') : ∃ t', t.onRepair gf dbg r = .ok t' ∧ Cov s' t' := by
  unfold Dec.onRepair at h ⊢
  rw [bind_ok_iff] at h
  obtain ⟨_, a1, h⟩ := h
  rw [a1]
  simp only [bind, Except.bind]
  rw [hl.same.lastId, hl.same.repairs]
  split at h
  · split at h
    · rename_i hc; rw [if_pos hc]; cases h; exact ⟨t, rfl, hl⟩
    rename_i hc; rw [if_neg hc]
    split at h
    · rename_i hc; rw [if_pos hc]; cases h; exact ⟨t, rfl, hl⟩
    rename_i hc; rw [if_neg hc]
    rw [bind_ok_iff] at h
    obtain ⟨s1, h1, h⟩ := h
    obtain ⟨t1, g1, l1⟩ := dropOutdated_cov hl h1
    rw [g1]
    simp only
    rw [l1.same.sources]
    split at h
    · rename_i hc; rw [if_pos hc]; cases h
      exact ⟨_, rfl, by covl l1⟩
    rename_i hc; rw [if_neg hc]
    rw [bind_ok_iff] at h
    obtain ⟨_, a0, h⟩ := h
    rw [bind_ok_iff] at h
    obtain ⟨⟨r', m⟩, a2, h⟩ := h
    rw [l1.same.missing, show linksAlive t1.repairs s1.missing _ = linksAlive s1.repairs s1.missing _ from by rw [l1.same.repairs], a0]
    simp only
    rw [a2]
    simp only at h ⊢
    rw [bind_ok_iff] at h
    obtain ⟨_, a3, h⟩ := h
    rw [a3]
    simp only
    split at h
    · rename_i hc; rw [if_pos hc]
      rw [bind_ok_iff] at h
      obtain ⟨src, a4, h⟩ := h
      rw [a4]
      simp only
      have hl2 : Cov
          { s1 with nbDecoded := s1.nbDecoded + 1, missing := m.erase src.id,
                    repairs := (s1.repairs.emplace r'.id r').erase r'.id }
          { t1 with nbDecoded := t1.nbDecoded + 1, missing := m.erase src.id, sources := s1.sources,
                    repairs := (t1.repairs.emplace r'.id r').erase r'.id } := by
        covl l1
      obtain ⟨t2, g2, l2⟩ := (add_scan_cov gf dbg _).1 _ _ _ _ hl2 h
      refine ⟨t2, ?_, l2⟩
      refine Eq.trans ?_ g2
      congr 1
      simp only [Dec.fuel, l1.same.1]
    · rename_i hc; rw [if_neg hc]
      exact fullDecode_cov (by covl l1) h
  · cases h

theorem cov_init (io : Bool) : Cov (Dec.init io) (Dec.init false) :=
  ⟨⟨rfl, rfl, rfl, rfl, rfl, rfl, rfl⟩, rfl, (by intro ev he; cases he), (by intro k x hx; cases hx)⟩

theorem cov_act {gf : GF w} {dbg : Bool} {clk : Clock} {d d' u : NDec} {a : DAct} (h : Cov d.det u.det)
    (ha : d.act gf dbg clk a = .ok d') : ∃ u', u.act gf dbg clk a = .ok u' ∧ Cov d'.det u'.det := by
  cases a with
  | packet p =>
    simp only [NDec.act, map_ok_iff] at ha ⊢
    obtain ⟨⟨d1, r⟩, h1, rfl⟩ := ha
    have hp : p ≠ [] := by rintro rfl; exact notify_nil _ _ _ _ _ h1
    cases notify_got h1 with
    | other g1 g2 =>
      have t1 : getPacketType p ≠ .ok .source := fun e => g2 (head_of_type e)
      have t2 : getPacketType p ≠ .ok .repair := fun e => g1 (head_of_type e)
      exact ⟨u, ⟨_, NDec.notify_of_other gf dbg clk u hp t1 t2, rfl⟩, h⟩
    | badSource g1 g2 =>
      refine ⟨u.gotSource, ⟨(u.gotSource, .error .overflow), ?_, rfl⟩, h⟩
      rw [NDec.notify_of_source gf dbg clk u (by rw [type_of_head g1]; rfl), g2]
    | badRepair g1 g2 =>
      refine ⟨u.gotRepair, ⟨(u.gotRepair, .error .overflow), ?_, rfl⟩, h⟩
      rw [NDec.notify_of_repair gf dbg clk u (by rw [type_of_head g1]; rfl), g2]
    | source s n det' g1 g2 ho =>
      obtain ⟨u1, o1, l1⟩ := onSource_cov h ho
      refine ⟨u.gotSource.afterDet clk u1, ⟨(_, .ok n), ?_, rfl⟩, ?_⟩
      · rw [NDec.notify_of_source gf dbg clk u (by rw [type_of_head g1]; rfl), g2]
        simp only
        rw [o1]; rfl
      · rw [(afterDet_step clk d.gotSource det' (onSource_ext ho).log).2.1, (afterDet_step clk u.gotSource u1 (onSource_ext o1).log).2.1]
        exact l1
    | repair s n det' g1 g2 ho =>
      obtain ⟨u1, o1, l1⟩ := onRepair_cov h ho
      refine ⟨u.gotRepair.afterDet clk u1, ⟨(_, .ok n), ?_, rfl⟩, ?_⟩
      · rw [NDec.notify_of_repair gf dbg clk u (by rw [type_of_head g1]; rfl), g2]
        simp only
        rw [o1]; rfl
      · rw [(afterDet_step clk d.gotRepair det' (onRepair_ext ho).log).2.1, (afterDet_step clk u.gotRepair u1 (onRepair_ext o1).log).2.1]
        exact l1
  | genAck => cases ha; exact ⟨_, rfl, h⟩
  | maybeAck =>
    cases ha
    refine ⟨_, rfl, ?_⟩
    unfold NDec.maybeAck
    rw [(maybeAckWith_frame clk d d.det.sources.keys).1, (maybeAckWith_frame clk u u.det.sources.keys).1]
    exact h
  | setAckNb n =>
    simp only [NDec.act, NDec.setAckNb, bind_ok_iff] at ha ⊢
    obtain ⟨_, h1, ha⟩ := ha
    cases ha
    exact ⟨{ u with ackNb := min n 128 }, ⟨(), h1, rfl⟩, h⟩
  | setAckPeriod ms => cases ha; exact ⟨_, rfl, h⟩

theorem cov_after {gf : GF w} {dbg : Bool} {clk : Clock} (acts : List DAct) (d d' u : NDec) (h : Cov d.det u.det)
    (ha : d.after gf dbg clk acts = .ok d') : ∃ u', u.after gf dbg clk acts = .ok u' ∧ Cov d'.det u'.det := by
  induction acts generalizing d u with
  | nil => cases ha; exact ⟨u, rfl, h⟩
  | cons a t ih =>
    obtain ⟨d1, h1, h2⟩ := after_cons.1 ha
    obtain ⟨u1, g1, t1⟩ := cov_act h h1
    obtain ⟨u2, g2, t2⟩ := ih d1 u1 t1 h2
    exact ⟨u2, after_cons.2 ⟨u1, g1, g2⟩, t2⟩

end Netcode
