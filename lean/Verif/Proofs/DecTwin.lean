import Verif.Proofs.DecHist

/-!
# Without ordering, what is held was handed over; and the decoder without ordering that follows a given one
-/

set_option linter.unusedSectionVars false

namespace Netcode

open OMap

variable {w : Nat}

/-- New sources were handed over. -/
structure Hand (s s' : Dec) : Prop where
  keys : ∀ x ∈ s'.sources.keys, x ∈ s.sources.keys ∨ x ∈ s'.handed
  pre : s.log <+: s'.log
  mode : s'.inOrder = false

theorem handed_mono {s s' : Dec} (h : s.log <+: s'.log) {x : Nat} (hx : x ∈ s.handed) : x ∈ s'.handed :=
  (h.map _).subset hx

theorem Hand.refl {s : Dec} (h : s.inOrder = false) : Hand s s := ⟨fun _ h => Or.inl h, List.prefix_refl _, h⟩

theorem Hand.trans {a b c : Dec} (h : Hand a b) (g : Hand b c) : Hand a c := by
  refine ⟨fun x hx => ?_, h.pre.trans g.pre, g.mode⟩
  rcases g.keys x hx with hx | hx
  · rcases h.keys x hx with hx | hx
    · exact Or.inl hx
    · exact Or.inr (handed_mono g.pre hx)
  · exact Or.inr hx

theorem Hand.of_ext {s s' : Dec} {k : Nat} (h : s.inOrder = false) (e : Ext k s s') (h1 : s'.sources = s.sources) :
    Hand s s' := ⟨fun x hx => Or.inl (by rw [← h1]; exact hx), e.log, e.inOrder.trans h⟩

theorem Hand.pre' {s0 s s' : Dec} (h : Hand s0 s') (h1 : s0.sources = s.sources) (h2 : s0.log = s.log) : Hand s s' :=
  ⟨by rw [← h1]; exact h.keys, by rw [← h2]; exact h.pre, h.mode⟩

theorem Hand.post {s s1 s' : Dec} (h : Hand s s1) (h1 : s'.sources = s1.sources) (h2 : s'.log = s1.log)
    (h3 : s'.inOrder = s1.inOrder) : Hand s s' :=
  ⟨by rw [h1]; unfold Dec.handed; rw [h2]; exact h.keys, by rw [h2]; exact h.pre, h3.trans h.mode⟩

theorem removeFromAll_src (gf : GF w) (dbg : Bool) (src : DSource) (l : List Nat) (s s' : Dec)
    (h : removeFromAll gf dbg src l s = .ok s') : s'.sources = s.sources ∧ s'.log = s.log := by
  induction l generalizing s with
  | nil => cases h; exact ⟨rfl, rfl⟩
  | cons rid t ih =>
    unfold removeFromAll at h
    split at h
    · cases h
    · rw [bind_ok_iff] at h
      obtain ⟨r', _, h⟩ := h
      have := ih _ h
      exact this

theorem addSourceHead_hand {gf : GF w} {dbg : Bool} {src : DSource} {s s' : Dec} (hio : s.inOrder = false)
    (h : addSourceHead gf dbg src s = .ok s') :
    s'.log = s.log ++ [{ id := src.id, data := src.sym, held := s.sources.keys }] ∧ s'.sources = s.sources := by
  unfold addSourceHead at h
  rw [bind_ok_iff] at h
  obtain ⟨s1, h1, h⟩ := h
  have hg : s.giveNew dbg src = .ok (s.callback src) := by unfold Dec.giveNew; rw [hio]; rfl
  rw [hg] at h1
  cases h1
  split at h
  · cases h; exact ⟨rfl, rfl⟩
  · rw [bind_ok_iff] at h
    obtain ⟨s2, h2, h⟩ := h
    cases h
    have := removeFromAll_src _ _ _ _ _ _ h2
    exact ⟨this.2, this.1⟩

theorem add_scan_hand (gf : GF w) (dbg : Bool) (fuel : Nat) :
    (∀ src s s', s.inOrder = false → addSource gf dbg fuel src s = .ok s' → Hand s s') ∧
    (∀ k s s', s.inOrder = false → scanMissing gf dbg fuel k s = .ok s' → Hand s s') := by
  induction fuel with
  | zero =>
    constructor
    · intro src s s' _ h; unfold addSource at h; cases h
    · intro k s s' hio h
      cases k with
      | none => unfold scanMissing at h; cases h; exact Hand.refl hio
      | some k => unfold scanMissing at h; cases h
  | succ fuel ih =>
    constructor
    · intro src s s' hio h
      unfold addSource at h
      rw [bind_ok_iff] at h
      obtain ⟨s1, h1, h⟩ := h
      rw [bind_ok_iff] at h
      obtain ⟨s2, h2, h⟩ := h
      obtain ⟨e1, e2⟩ := addSourceHead_hand hio h1
      have a1 : Hand s s1 := Hand.of_ext hio (addSourceHead_ext h1) e2
      have a2 := ih.2 _ _ _ a1.mode h2
      have hin : src.id ∈ s2.handed := handed_mono a2.pre (by unfold Dec.handed; rw [e1]; simp)
      refine (a1.trans a2).trans ?_
      unfold addSourceTail at h
      rw [bind_ok_iff] at h
      obtain ⟨_, _, h⟩ := h
      simp only [a2.mode, Bool.false_and, Bool.false_eq_true, ↓reduceIte] at h
      cases h
      refine ⟨fun x hx => ?_, List.prefix_refl _, rfl⟩
      rcases (mem_keys_emplace _ _ _ _).1 hx with rfl | hx
      · exact Or.inr hin
      · exact Or.inl hx
    · intro k s s' hio h
      cases k with
      | none => unfold scanMissing at h; cases h; exact Hand.refl hio
      | some k =>
        unfold scanMissing at h
        split at h
        · cases h
        · split at h
          · cases h
          · split at h
            · rw [bind_ok_iff] at h
              obtain ⟨_, _, h⟩ := h
              rw [bind_ok_iff] at h
              obtain ⟨_, _, h⟩ := h
              rw [bind_ok_iff] at h
              obtain ⟨src, _, h⟩ := h
              simp only at h
              rw [bind_ok_iff] at h
              obtain ⟨s1, h1, h⟩ := h
              have a1 := ih.1 _ _ _ (by exact hio) h1
              exact Hand.trans (Hand.pre' (s := s) a1 rfl rfl) (ih.2 _ _ _ a1.mode h)
            · exact ih.2 _ _ _ hio h
        · exact ih.2 _ _ _ hio h

theorem get?_emplace_self {V : Type} (m : OMap V) (k : Nat) (v : V) (h : k ∉ m.keys) :
    (m.emplace k v).get? k = some v := by
  induction m with
  | nil => simp [OMap.emplace, OMap.get?]
  | cons p t ih =>
    obtain ⟨a, b⟩ := p
    simp only [OMap.keys, List.map_cons, List.mem_cons, not_or] at h
    unfold OMap.emplace
    split
    · simp [OMap.get?]
    · split
      · rename_i h1 h2; exact absurd h2 h.1
      · have := ih h.2
        unfold OMap.get? at this ⊢
        rw [List.find?_cons_of_neg (by simpa using fun e => h.1 e.symm)]
        exact this

theorem insertDecoded_hand {dbg : Bool} {src : DSource} {s s' : Dec} (hio : s.inOrder = false)
    (h : s.insertDecoded dbg src = .ok s') : Hand s s' := by
  unfold Dec.insertDecoded at h
  rw [bind_ok_iff] at h
  obtain ⟨_, _, h⟩ := h
  simp only at h
  split at h
  · cases h
  · rename_i v hv
    have hg : ∀ u : Dec, u.inOrder = false → Dec.giveDecoded dbg v u = .ok (u.callback v) := by
      intro u hu; unfold Dec.giveDecoded; rw [hu]; rfl
    rw [hg _ (by exact hio)] at h
    cases h
    refine ⟨fun x hx => ?_, List.prefix_append _ _, hio⟩
    rcases (mem_keys_emplace _ _ _ _).1 hx with rfl | hx
    · by_cases hk : src.id ∈ s.sources.keys
      · exact Or.inl hk
      · rw [get?_emplace_self _ _ _ hk] at hv
        cases hv
        exact Or.inr (by simp [Dec.handed, Dec.callback])
    · exact Or.inl hx

theorem decodeLoop_hand (gf : GF w) (dbg : Bool) (inv : Mat w) (reps : List DRepair) (l : List Nat) (col : Nat)
    (s s' : Dec) (hio : s.inOrder = false) (h : decodeLoop gf dbg inv reps col l s = .ok s') : Hand s s' := by
  induction l generalizing col s with
  | nil => unfold decodeLoop at h; cases h; exact Hand.refl hio
  | cons x t ih =>
    unfold decodeLoop at h
    rw [bind_ok_iff] at h
    obtain ⟨_, _, h⟩ := h
    rw [bind_ok_iff] at h
    obtain ⟨s1, h1, h⟩ := h
    have a1 := insertDecoded_hand hio h1
    exact a1.trans (ih _ _ a1.mode h)

theorem fullDecode_hand {gf : GF w} {dbg : Bool} {s s' : Dec} (hio : s.inOrder = false)
    (h : s.fullDecode gf dbg = .ok s') : Hand s s' := by
  unfold Dec.fullDecode at h
  split at h
  · cases h; exact Hand.refl hio
  split at h
  · cases h; exact Hand.refl hio
  rw [bind_ok_iff] at h
  obtain ⟨_, _, h⟩ := h
  rw [bind_ok_iff] at h
  obtain ⟨_, _, h⟩ := h
  rw [bind_ok_iff] at h
  obtain ⟨_, _, h⟩ := h
  split at h
  · split at h
    · cases h
    · rw [bind_ok_iff] at h
      obtain ⟨_, _, h⟩ := h
      cases h
      exact (Hand.refl hio).post rfl rfl rfl
  · simp only at h
    rw [bind_ok_iff] at h
    obtain ⟨s1, h1, h⟩ := h
    cases h
    exact (decodeLoop_hand _ _ _ _ _ _ _ _ hio h1).post rfl rfl rfl

theorem onSource_hand {gf : GF w} {dbg : Bool} {s s' : Dec} {src : DSource} (hio : s.inOrder = false)
    (h : s.onSource gf dbg src = .ok s') : Hand s s' := by
  unfold Dec.onSource at h
  split at h
  · cases h; exact Hand.refl hio
  · split at h
    · cases h; exact Hand.refl hio
    · rw [bind_ok_iff] at h
      obtain ⟨s1, e1, h⟩ := h
      have a1 := (add_scan_hand gf dbg _).1 _ _ _ hio e1
      exact a1.trans (fullDecode_hand a1.mode h)

theorem onRepair_hand {gf : GF w} {dbg : Bool} {s s' : Dec} {r : DRepair} (hio : s.inOrder = false)
    (h : s.onRepair gf dbg r = .ok s') : Hand s s' := by
  unfold Dec.onRepair at h
  rw [bind_ok_iff] at h
  obtain ⟨_, _, h⟩ := h
  split at h
  · split at h
    · cases h; exact Hand.refl hio
    split at h
    · cases h; exact Hand.refl hio
    rw [bind_ok_iff] at h
    obtain ⟨s1, h1, h⟩ := h
    have e1 := dropOutdated_ext h1
    have a1 : Hand s s1 := ⟨fun x hx => Or.inl ((dropOutdated_held h1).1 x hx), e1.log, e1.inOrder.trans hio⟩
    refine a1.trans ?_
    split at h
    · cases h; exact (Hand.refl a1.mode).post rfl rfl rfl
    rw [bind_ok_iff] at h
    obtain ⟨_, _, h⟩ := h
    rw [bind_ok_iff] at h
    obtain ⟨⟨r', m⟩, _, h⟩ := h
    simp only at h
    rw [bind_ok_iff] at h
    obtain ⟨_, _, h⟩ := h
    split at h
    · rw [bind_ok_iff] at h
      obtain ⟨src, _, h⟩ := h
      exact Hand.pre' ((add_scan_hand gf dbg _).1 _ _ _ (by exact a1.mode) h) rfl rfl
    · exact Hand.pre' (fullDecode_hand (by exact a1.mode) h) rfl rfl
  · cases h

/-! ## Two decoders fed with the same packets -/

/-- `u` does not order and follows `d`. -/
structure Twin (d u : NDec) : Prop where
  like : Like d.det u.det
  src : u.nbSources = d.nbSources
  rep : u.nbRepairs = d.nbRepairs
  held : ∀ x ∈ u.det.sources.keys, x ∈ u.det.handed
  seen : ∀ ev ∈ d.det.log, ∀ x ∈ ev.held, x ∈ u.det.handed
  acks : AckInv {x | x ∈ u.det.handed} d
  data : d.data = d.det.log.map (·.data)

theorem twin_init (clk : Clock) (io : Bool) : Twin (NDec.init clk io) (NDec.init clk false) := by
  refine ⟨⟨⟨rfl, rfl, rfl, rfl, rfl, rfl, rfl⟩, rfl⟩, rfl, rfl, ?_, ?_, ⟨List.Pairwise.nil, by simp [NDec.init], by show 0 < 2 ^ 16; decide, ?_⟩, rfl⟩
  · intro x hx; cases hx
  · intro x hx; cases hx
  · intro x hx; cases hx

theorem Twin.acked {d d' u u' : NDec} (h : Twin d u) (hd : AckStep d d') (hu : AckStep u u') (h1 : d'.det = d.det)
    (h2 : d'.data = d.data) (h3 : u'.det = u.det) (h4 : AckInv {x | x ∈ u.det.handed} d') : Twin d' u' := by
  refine ⟨by rw [h1, h3]; exact h.like, by rw [hu.src, hd.src]; exact h.src, by rw [hu.rep, hd.rep]; exact h.rep,
    by rw [h3]; exact h.held, by rw [h1, h3]; exact h.seen, by rw [h3]; exact h4, by rw [h1, h2]; exact h.data⟩

/-- The call of `detail::decoder`, then the callbacks. -/
theorem Twin.det {d u : NDec} (clk : Clock) {d1 u1 : Dec} (h : Twin d u) (hl : Like d1 u1)
    (hp : d.det.log <+: d1.log) (hh : Hand u.det u1)
    (hev : ∀ ev ∈ d1.log.drop d.det.log.length, ∀ x ∈ ev.held, x ∈ d.det.sources.keys ∨ x ∈ d1.sources.keys) :
    Twin (d.afterDet clk d1) (u.afterDet clk u1) := by
  have hk : ∀ x ∈ u1.sources.keys, x ∈ u1.handed := by
    intro x hx
    rcases hh.keys x hx with hx | hx
    · exact handed_mono hh.pre (h.held x hx)
    · exact hx
  have hseen : ∀ ev ∈ d1.log, ∀ x ∈ ev.held, x ∈ u1.handed := by
    intro ev he x hx
    have hsplit : d1.log = d.det.log ++ d1.log.drop d.det.log.length := by
      obtain ⟨t, ht⟩ := hp
      rw [← ht]; simp
    rw [hsplit, List.mem_append] at he
    rcases he with he | he
    · exact handed_mono hh.pre (h.seen ev he x hx)
    · rcases hev ev he x hx with hx | hx
      · rw [← h.like.same.sources] at hx
        exact handed_mono hh.pre (h.held x hx)
      · rw [← hl.same.sources] at hx
        exact hk x hx
  have hA : AckInv {x | x ∈ u1.handed} d := h.acks.mono (fun x hx => handed_mono hh.pre hx)
  obtain ⟨a1, a2, a3⟩ := afterDet_ok clk d d1 hA hp hseen h.data
  obtain ⟨b1, b2, _⟩ := afterDet_step clk d d1 hp
  obtain ⟨c1, c2, _⟩ := afterDet_step clk u u1 hh.pre
  exact ⟨by rw [a2, c2]; exact hl, by rw [c1.src, b1.src]; exact h.src, by rw [c1.rep, b1.rep]; exact h.rep,
    by rw [c2]; exact hk, by rw [a2, c2]; exact hseen, by rw [c2]; exact a1, by rw [a2, a3]⟩

theorem Twin.gotSource {d u : NDec} (h : Twin d u) : Twin d.gotSource u.gotSource :=
  ⟨h.like, by show u.nbSources + 1 = d.nbSources + 1; rw [h.src], h.rep, h.held, h.seen,
   h.acks.congr rfl (Nat.mod_lt _ (by decide)) rfl, h.data⟩

theorem Twin.gotRepair {d u : NDec} (h : Twin d u) : Twin d.gotRepair u.gotRepair :=
  ⟨h.like, h.src, by show u.nbRepairs + 1 = d.nbRepairs + 1; rw [h.rep], h.held, h.seen,
   h.acks.congr rfl (Nat.mod_lt _ (by decide)) rfl, h.data⟩

theorem twin_act {gf : GF w} {dbg : Bool} {clk : Clock} {d d' u : NDec} {a : DAct} (h : Twin d u)
    (ha : d.act gf dbg clk a = .ok d') : ∃ u', u.act gf dbg clk a = .ok u' ∧ Twin d' u' := by
  cases a with
  | packet p =>
    simp only [NDec.act, map_ok_iff] at ha ⊢
    obtain ⟨⟨d1, r⟩, h1, rfl⟩ := ha
    have hp : p ≠ [] := by rintro rfl; exact notify_nil _ _ _ _ _ h1
    cases notify_got h1 with
    | other g1 g2 =>
      have t1 : getPacketType p ≠ .ok .source := fun e => g2 (head_of_type e)
      have t2 : getPacketType p ≠ .ok .repair := fun e => g1 (head_of_type e)
      exact ⟨u, ⟨_, NDec.notify_of_other gf dbg clk u hp t1 t2, rfl⟩, h⟩
    | badSource g1 g2 =>
      refine ⟨u.gotSource, ⟨(u.gotSource, .error .overflow), ?_, rfl⟩, h.gotSource⟩
      rw [NDec.notify_of_source gf dbg clk u (by rw [type_of_head g1]; rfl), g2]
    | badRepair g1 g2 =>
      refine ⟨u.gotRepair, ⟨(u.gotRepair, .error .overflow), ?_, rfl⟩, h.gotRepair⟩
      rw [NDec.notify_of_repair gf dbg clk u (by rw [type_of_head g1]; rfl), g2]
    | source s n det' g1 g2 ho =>
      obtain ⟨u1, o1, l1⟩ := onSource_like h.like ho
      refine ⟨u.gotSource.afterDet clk u1, ⟨(_, .ok n), ?_, rfl⟩, ?_⟩
      · rw [NDec.notify_of_source gf dbg clk u (by rw [type_of_head g1]; rfl), g2]
        simp only
        rw [o1]; rfl
      · exact h.gotSource.det clk l1 (onSource_ext ho).log (onSource_hand h.like.mode o1)
          (fun ev he x hx => Or.inr ((onSource_grow ho).held ev he x hx))
    | repair s n det' g1 g2 ho =>
      obtain ⟨u1, o1, l1⟩ := onRepair_like h.like ho
      refine ⟨u.gotRepair.afterDet clk u1, ⟨(_, .ok n), ?_, rfl⟩, ?_⟩
      · rw [NDec.notify_of_repair gf dbg clk u (by rw [type_of_head g1]; rfl), g2]
        simp only
        rw [o1]; rfl
      · exact h.gotRepair.det clk l1 (onRepair_ext ho).log (onRepair_hand h.like.mode o1) (onRepair_held ho)
  | genAck =>
    cases ha
    refine ⟨_, rfl, h.acked (generateAckWith_step _ _) (generateAckWith_step _ _) rfl rfl rfl ?_⟩
    refine generateAckWith_inv h.acks _ (fun x hx => ?_)
    rw [← h.like.same.sources] at hx
    exact h.held x hx
  | maybeAck =>
    cases ha
    have f1 := maybeAckWith_frame clk d d.det.sources.keys
    have f2 := maybeAckWith_frame clk u u.det.sources.keys
    refine ⟨_, rfl, h.acked (maybeAckWith_step _ _ _) (maybeAckWith_step _ _ _) f1.1 f1.2 f2.1 ?_⟩
    refine maybeAckWith_inv h.acks clk _ (fun x hx => ?_)
    rw [← h.like.same.sources] at hx
    exact h.held x hx
  | setAckNb n =>
    simp only [NDec.act, NDec.setAckNb, bind_ok_iff] at ha ⊢
    obtain ⟨_, h1, ha⟩ := ha
    cases ha
    exact ⟨{ u with ackNb := min n 128 }, ⟨(), h1, rfl⟩,
      ⟨h.like, h.src, h.rep, h.held, h.seen, h.acks.congr rfl h.acks.packets rfl, h.data⟩⟩
  | setAckPeriod ms =>
    cases ha
    exact ⟨_, rfl, ⟨h.like, h.src, h.rep, h.held, h.seen, h.acks.congr rfl h.acks.packets rfl, h.data⟩⟩

theorem twin_after {gf : GF w} {dbg : Bool} {clk : Clock} (acts : List DAct) (d d' u : NDec) (h : Twin d u)
    (ha : d.after gf dbg clk acts = .ok d') : ∃ u', u.after gf dbg clk acts = .ok u' ∧ Twin d' u' := by
  induction acts generalizing d u with
  | nil => cases ha; exact ⟨u, rfl, h⟩
  | cons a t ih =>
    obtain ⟨d1, h1, h2⟩ := after_cons.1 ha
    obtain ⟨u1, g1, t1⟩ := twin_act h h1
    obtain ⟨u2, g2, t2⟩ := ih d1 u1 t1 h2
    exact ⟨u2, after_cons.2 ⟨u1, g1, g2⟩, t2⟩

end Netcode
