import Verif.Proofs.DecTwin

/-!
# Lemmas on single calls of a decoder in any state
-/

set_option linter.unusedSectionVars false

namespace Netcode

open OMap

variable {w : Nat}

/-! ## Held at some time -/

theorem after_snoc {gf : GF w} {dbg : Bool} {clk : Clock} {d d' : NDec} {a : DAct} {t : List DAct} :
    d.after gf dbg clk (t ++ [a]) = .ok d' ↔ ∃ d1, d.after gf dbg clk t = .ok d1 ∧ d1.act gf dbg clk a = .ok d' := by
  unfold NDec.after
  rw [List.foldlM_append, bind_ok_iff]
  simp

theorem EverHeld.mono {gf : GF w} {dbg : Bool} {clk : Clock} {d : NDec} {acts acts' : List DAct} {x : Nat}
    (h : acts <+: acts') (hx : d.EverHeld gf dbg clk acts x) : d.EverHeld gf dbg clk acts' x := by
  obtain ⟨p, d', h1, h2, h3⟩ := hx
  exact ⟨p, d', h1.trans h, h2, h3⟩

/-- The invariant: what the callback has seen and what acks list was held at some time. -/
structure Past (gf : GF w) (dbg : Bool) (clk : Clock) (d0 : NDec) (acts : List DAct) (d : NDec) : Prop where
  seen : ∀ ev ∈ d.det.log, ∀ x ∈ ev.held, d0.EverHeld gf dbg clk acts x
  acks : AckInv {x | d0.EverHeld gf dbg clk acts x} d
  data : d.data = d.det.log.map (·.data)

theorem past_init (gf : GF w) (dbg : Bool) (clk : Clock) (io : Bool) :
    Past gf dbg clk (NDec.init clk io) [] (NDec.init clk io) := by
  refine ⟨?_, ⟨List.Pairwise.nil, by simp [NDec.init], by show 0 < 2 ^ 16; decide, ?_⟩, rfl⟩
  · intro x hx; cases hx
  · intro x hx; cases hx

theorem past_act {gf : GF w} {dbg : Bool} {clk : Clock} {d0 d d' : NDec} {acts : List DAct} {a : DAct}
    (h : Past gf dbg clk d0 acts d) (h0 : d0.after gf dbg clk acts = .ok d)
    (ha : d.act gf dbg clk a = .ok d') : Past gf dbg clk d0 (acts ++ [a]) d' := by
  have hall : d0.after gf dbg clk (acts ++ [a]) = .ok d' := after_snoc.2 ⟨d, h0, ha⟩
  have hseen : ∀ ev ∈ d.det.log, ∀ x ∈ ev.held, d0.EverHeld gf dbg clk (acts ++ [a]) x :=
    fun ev he x hx => EverHeld.mono (List.prefix_append _ _) (h.seen ev he x hx)
  have hA : AckInv {x | d0.EverHeld gf dbg clk (acts ++ [a]) x} d :=
    h.acks.mono (fun x hx => EverHeld.mono (List.prefix_append _ _) hx)
  have hbefore : ∀ x ∈ d.det.sources.keys, d0.EverHeld gf dbg clk (acts ++ [a]) x :=
    fun x hx => ⟨acts, d, List.prefix_append _ _, h0, hx⟩
  have hafter : ∀ x ∈ d'.det.sources.keys, d0.EverHeld gf dbg clk (acts ++ [a]) x :=
    fun x hx => ⟨acts ++ [a], d', List.prefix_refl _, hall, hx⟩
  have hdet : ∀ (d1 : NDec) (det' : Dec), d1.det = d.det → d1.data = d.data →
      AckInv {x | d0.EverHeld gf dbg clk (acts ++ [a]) x} d1 → d' = d1.afterDet clk det' → d.det.log <+: det'.log →
      (∀ ev ∈ det'.log.drop d.det.log.length, ∀ x ∈ ev.held, x ∈ d.det.sources.keys ∨ x ∈ det'.sources.keys) →
      Past gf dbg clk d0 (acts ++ [a]) d' := by
    intro d1 det' e1 e2 e3 e4 hp hev
    have hd' : d'.det = det' := by rw [e4]; exact (afterDet_step clk d1 det' (by rw [e1]; exact hp)).2.1
    have hs : ∀ ev ∈ det'.log, ∀ x ∈ ev.held, d0.EverHeld gf dbg clk (acts ++ [a]) x := by
      intro ev he x hx
      have hsplit : det'.log = d.det.log ++ det'.log.drop d.det.log.length := by
        obtain ⟨t, ht⟩ := hp
        rw [← ht]; simp
      rw [hsplit, List.mem_append] at he
      rcases he with he | he
      · exact hseen ev he x hx
      · rcases hev ev he x hx with hx | hx
        · exact hbefore x hx
        · exact hafter x (by rw [hd']; exact hx)
    obtain ⟨a1, a2, a3⟩ := afterDet_ok clk d1 det' e3 (by rw [e1]; exact hp) hs (by rw [e1, e2]; exact h.data)
    rw [e4]
    exact ⟨by rw [a2]; exact hs, a1, by rw [a2, a3]⟩
  cases a with
  | packet p =>
    simp only [NDec.act, map_ok_iff] at ha
    obtain ⟨⟨d1, r⟩, h1, rfl⟩ := ha
    cases notify_got h1 with
    | other => exact ⟨hseen, hA, h.data⟩
    | badSource => exact ⟨hseen, hA.congr rfl (Nat.mod_lt _ (by decide)) rfl, h.data⟩
    | badRepair => exact ⟨hseen, hA.congr rfl (Nat.mod_lt _ (by decide)) rfl, h.data⟩
    | source s n det' _ _ ho =>
      exact hdet d.gotSource det' rfl rfl (hA.congr rfl (Nat.mod_lt _ (by decide)) rfl) rfl (onSource_ext ho).log
        (fun ev he x hx => Or.inr ((onSource_grow ho).held ev he x hx))
    | repair s n det' _ _ ho =>
      exact hdet d.gotRepair det' rfl rfl (hA.congr rfl (Nat.mod_lt _ (by decide)) rfl) rfl (onRepair_ext ho).log
        (onRepair_held ho)
  | genAck =>
    cases ha
    exact ⟨hseen, generateAckWith_inv hA _ hbefore, h.data⟩
  | maybeAck =>
    cases ha
    have f := maybeAckWith_frame clk d d.det.sources.keys
    refine ⟨?_, maybeAckWith_inv hA clk _ hbefore, ?_⟩
    · show ∀ ev ∈ (d.maybeAckWith clk d.det.sources.keys).det.log, _
      rw [f.1]; exact hseen
    · show (d.maybeAckWith clk d.det.sources.keys).data = (d.maybeAckWith clk d.det.sources.keys).det.log.map (·.data)
      rw [f.1, f.2]; exact h.data
  | setAckNb n =>
    simp only [NDec.act, NDec.setAckNb, bind_ok_iff] at ha
    obtain ⟨_, _, ha⟩ := ha
    cases ha
    exact ⟨hseen, hA.congr rfl hA.packets rfl, h.data⟩
  | setAckPeriod ms =>
    cases ha
    exact ⟨hseen, hA.congr rfl hA.packets rfl, h.data⟩

theorem past_after {gf : GF w} {dbg : Bool} {clk : Clock} {d0 : NDec} (h0 : Past gf dbg clk d0 [] d0)
    (acts : List DAct) : ∀ d, d0.after gf dbg clk acts = .ok d → Past gf dbg clk d0 acts d := by
  induction acts using List.reverseRecOn with
  | nil => intro d h; cases h; exact h0
  | append_singleton t a ih =>
    intro d h
    obtain ⟨d1, h1, h2⟩ := after_snoc.1 h
    exact past_act (ih d1 h1) h1 h2

/-! ## What acks report -/

/-- Acks sent by calls of `maybe_ack` or `generate_ack`: the first one reports all packets, the others none. -/
structure Rep (d d' : NDec) (n : Nat) : Prop where
  out : ∃ new, d'.out = d.out ++ new ∧
    ((new = [] ∧ d'.ackPackets = n) ∨
     ∃ a t, new = a :: t ∧ a.nbPackets = n ∧ (∀ b ∈ t, b.nbPackets = 0) ∧ d'.ackPackets = 0)

theorem Rep.refl (d : NDec) : Rep d d d.ackPackets := ⟨[], by simp, Or.inl ⟨rfl, rfl⟩⟩

theorem Rep.trans {a b c : NDec} {n : Nat} (h : Rep a b n) (g : Rep b c b.ackPackets) : Rep a c n := by
  obtain ⟨x, hx, h⟩ := h.out
  obtain ⟨y, hy, g⟩ := g.out
  refine ⟨x ++ y, by rw [hy, hx, List.append_assoc], ?_⟩
  rcases h with ⟨rfl, h⟩ | ⟨k, t, rfl, h1, h2, h3⟩
  · rw [List.nil_append, ← h]; exact g
  · refine Or.inr ⟨k, t ++ y, rfl, h1, ?_, ?_⟩
    · intro z hz
      rcases List.mem_append.1 hz with hz | hz
      · exact h2 z hz
      · rcases g with ⟨rfl, _⟩ | ⟨k', t', rfl, g1, g2, _⟩
        · cases hz
        · rcases List.mem_cons.1 hz with rfl | hz
          · rw [g1, h3]
          · exact g2 z hz
    · rcases g with ⟨_, g⟩ | ⟨_, _, _, _, _, g⟩
      · rw [g, h3]
      · exact g

theorem generateAckWith_rep (d : NDec) (held : List Nat) : Rep d (d.generateAckWith held) d.ackPackets :=
  ⟨[_], rfl, Or.inr ⟨_, [], rfl, rfl, by simp, rfl⟩⟩

theorem maybeAckWith_rep (clk : Clock) (d : NDec) (held : List Nat) :
    Rep d (d.maybeAckWith clk held) d.ackPackets := by
  unfold NDec.maybeAckWith
  split
  · exact ⟨[_], rfl, Or.inr ⟨_, [], rfl, rfl, by simp, rfl⟩⟩
  · split
    · simp only
      split
      · exact ⟨[_], rfl, Or.inr ⟨_, [], rfl, rfl, by simp, rfl⟩⟩
      · exact ⟨[], by simp, Or.inl ⟨rfl, rfl⟩⟩
    · exact Rep.refl _

theorem handleFold_rep (clk : Clock) (evs : List Event) (d : NDec) :
    Rep d (evs.foldl (NDec.handleSource clk) d) d.ackPackets := by
  induction evs generalizing d with
  | nil => exact Rep.refl _
  | cons ev t ih =>
    rw [List.foldl_cons]
    have h1 := maybeAckWith_rep clk { d with data := d.data ++ [ev.data] } ev.held
    exact Rep.trans (b := NDec.handleSource clk d ev) ⟨h1.out⟩ (ih _)

theorem afterDet_rep (clk : Clock) (d : NDec) (det' : Dec) : Rep d (d.afterDet clk det') d.ackPackets :=
  ⟨(handleFold_rep clk _ { d with det := det' }).out⟩

theorem act_rep {gf : GF w} {dbg : Bool} {clk : Clock} {d d' : NDec} {a : DAct} (hp : d.ackPackets < 2 ^ 16)
    (ha : d.act gf dbg clk a = .ok d') :
    Rep d d' ((d.ackPackets + (nbOfType 1#8 [a] + nbOfType 2#8 [a])) % 65536) := by
  have hz : d.ackPackets % 65536 = d.ackPackets := Nat.mod_eq_of_lt hp
  cases a with
  | packet p =>
    simp only [NDec.act, map_ok_iff] at ha
    obtain ⟨⟨d1, r⟩, h1, rfl⟩ := ha
    have one2 : p.head? = some 2#8 → nbOfType 1#8 [.packet p] + nbOfType 2#8 [.packet p] = 1 := by
      intro e; simp [nbOfType, e]
    have one1 : p.head? = some 1#8 → nbOfType 1#8 [.packet p] + nbOfType 2#8 [.packet p] = 1 := by
      intro e; simp [nbOfType, e]
    cases notify_got h1 with
    | other g1 g2 =>
      rw [show nbOfType 1#8 [.packet p] + nbOfType 2#8 [.packet p] = 0 by simp [nbOfType, g1, g2], Nat.add_zero, hz]
      exact Rep.refl d
    | badSource g1 _ =>
      rw [one2 g1]
      exact ⟨(Rep.refl d.gotSource).out⟩
    | badRepair g1 _ =>
      rw [one1 g1]
      exact ⟨(Rep.refl d.gotRepair).out⟩
    | source s n det' g1 _ ho =>
      rw [one2 g1]
      exact ⟨(afterDet_rep clk d.gotSource det').out⟩
    | repair s n det' g1 _ ho =>
      rw [one1 g1]
      exact ⟨(afterDet_rep clk d.gotRepair det').out⟩
  | genAck =>
    cases ha
    rw [show nbOfType 1#8 [.genAck] + nbOfType 2#8 [.genAck] = 0 from rfl, Nat.add_zero, hz]
    exact generateAckWith_rep _ _
  | maybeAck =>
    cases ha
    rw [show nbOfType 1#8 [.maybeAck] + nbOfType 2#8 [.maybeAck] = 0 from rfl, Nat.add_zero, hz]
    exact maybeAckWith_rep _ _ _
  | setAckNb n =>
    simp only [NDec.act, NDec.setAckNb, bind_ok_iff] at ha
    obtain ⟨_, _, ha⟩ := ha
    cases ha
    rw [show nbOfType 1#8 [.setAckNb n] + nbOfType 2#8 [.setAckNb n] = 0 from rfl, Nat.add_zero, hz]
    exact ⟨(Rep.refl d).out⟩
  | setAckPeriod ms =>
    cases ha
    rw [show nbOfType 1#8 [.setAckPeriod ms] + nbOfType 2#8 [.setAckPeriod ms] = 0 from rfl, Nat.add_zero, hz]
    exact ⟨(Rep.refl d).out⟩

theorem sinceLast_mod (l : List (Nat × Nat)) (n m : Nat) (h : n % 65536 = m % 65536) :
    (sinceLast n l).map (· % 65536) = (sinceLast m l).map (· % 65536) := by
  induction l generalizing n m with
  | nil => rfl
  | cons p t ih =>
    obtain ⟨c, k⟩ := p
    cases k with
    | zero => exact ih _ _ (by omega)
    | succ k =>
      simp only [sinceLast, List.map_cons, List.cons.injEq, and_true]
      omega

theorem map_zero {l : List Ack} (h : ∀ b ∈ l, b.nbPackets = 0) : l.map (·.nbPackets) = List.replicate l.length 0 := by
  rw [List.eq_replicate_iff]
  exact ⟨by simp, by simpa using h⟩

theorem ackTrace_sound {gf : GF w} {dbg : Bool} {clk : Clock} (acts : List DAct) (d d' : NDec)
    (hp : d.ackPackets < 2 ^ 16) (ha : d.after gf dbg clk acts = .ok d') :
    d'.out.map (·.nbPackets) = d.out.map (·.nbPackets) ++
      (sinceLast d.ackPackets (ackTrace gf dbg clk d acts)).map (· % 65536) := by
  induction acts generalizing d with
  | nil => cases ha; simp [ackTrace, sinceLast]
  | cons a t ih =>
    obtain ⟨d1, h1, h2⟩ := after_cons.1 ha
    obtain ⟨new, hn, h⟩ := (act_rep hp h1).out
    unfold ackTrace
    rw [h1]
    simp only
    have hlen : d1.out.length - d.out.length = new.length := by rw [hn, List.length_append]; omega
    rw [hlen]
    rcases h with ⟨rfl, h⟩ | ⟨k, u, rfl, e1, e2, e3⟩
    · have hp1 : d1.ackPackets < 2 ^ 16 := by rw [h]; exact Nat.mod_lt _ (by decide)
      rw [ih d1 hp1 h2, hn]
      simp only [List.append_nil, List.length_nil, sinceLast]
      congr 1
      apply sinceLast_mod
      rw [h, Nat.mod_mod]
    · rw [ih d1 (by rw [e3]; decide) h2, hn, e3]
      simp only [List.length_cons, sinceLast, List.map_append, List.map_cons, List.append_assoc, List.cons_append,
        e1, map_zero e2, List.map_replicate, Nat.zero_mod, List.nil_append]

theorem handleFold_low (clk : Clock) (evs : List Event) (d : NDec) (hnb : 0 < d.ackNb) (he : evs ≠ []) :
    (evs.foldl (NDec.handleSource clk) d).ackPackets < (evs.foldl (NDec.handleSource clk) d).ackNb := by
  obtain ⟨t, ev, rfl⟩ : ∃ t ev, evs = t ++ [ev] := ⟨_, _, (List.dropLast_append_getLast he).symm⟩
  rw [List.foldl_append]
  have h0 : (t.foldl (NDec.handleSource clk) d).ackNb = d.ackNb := (handleFold_step clk t d).1.nb
  generalize t.foldl (NDec.handleSource clk) d = u at h0
  simp only [List.foldl_cons, List.foldl_nil, NDec.handleSource, NDec.maybeAckWith]
  split
  · simp only [NDec.generateAckWith]; omega
  · split
    · split
      · simp only [NDec.generateAckWith]; omega
      · simp only; omega
    · simp only; omega

/-! ## A new source, without ordering -/

theorem onSource_first {gf : GF w} {dbg : Bool} {s s' : Dec} {src : DSource} (hio : s.inOrder = false)
    (h1 : ¬ s.Outdated src.id) (h2 : ¬ s.Holds src.id) (h : s.onSource gf dbg src = .ok s') :
    s.log ++ [{ id := src.id, data := src.sym, held := s.sources.keys }] <+: s'.log := by
  unfold Dec.onSource at h
  rw [if_neg, if_neg] at h
  · rw [bind_ok_iff] at h
    obtain ⟨s1, e1, h⟩ := h
    unfold addSource at e1
    split at e1
    · cases e1
    · rw [bind_ok_iff] at e1
      obtain ⟨s2, e2, e1⟩ := e1
      rw [bind_ok_iff] at e1
      obtain ⟨s3, e3, e1⟩ := e1
      have a := (addSourceHead_hand hio e2).1
      have b := ((add_scan_grow gf dbg _).2 _ _ _ e3).pre
      have c := (addSourceTail_grow e1).pre
      have d := (fullDecode_grow h).pre
      rw [← a]
      exact (b.trans c).trans d
  · intro hc; exact h2 ((has_iff _ _).1 hc)
  · intro hc
    apply h1
    cases hl : s.lastId with
    | none => rw [hl] at hc; cases hc
    | some l => rw [hl] at hc; exact ⟨l, hl, by simpa using hc⟩

theorem onSource_ignored {gf : GF w} {dbg : Bool} {s : Dec} {src : DSource} (h : s.Outdated src.id ∨ s.Holds src.id) :
    s.onSource gf dbg src = .ok s := by
  unfold Dec.onSource
  split
  · rfl
  · rename_i h1
    rw [if_pos]
    rcases h with ⟨l, hl, hlt⟩ | h
    · exact absurd (by rw [hl]; simpa using hlt) h1
    · exact (has_iff _ _).2 h

theorem afterDet_same (clk : Clock) (d : NDec) : d.afterDet clk d.det = d := by
  unfold NDec.afterDet; simp

/-! ## Repairs -/

theorem onRepair_ignored {gf : GF w} {dbg : Bool} {s : Dec} {r : DRepair} (hne : r.ids ≠ [])
    (h : s.repairs.has r.id = true ∨ ∃ l, s.lastId = some l ∧ r.ids.getLast hne < l) :
    s.onRepair gf dbg r = .ok s := by
  unfold Dec.onRepair
  rw [cassert_ok _ (by simpa using hne), List.getLast?_eq_getLast hne,
    List.head?_eq_some_head hne]
  simp only [bind, Except.bind]
  split
  · rfl
  · rename_i h1
    rcases h with h | ⟨l, hl, hlt⟩
    · rw [if_pos h]; rfl
    · exact absurd (by rw [hl]; simpa using hlt) h1

theorem get?_eraseBelow {V : Type} (m : OMap V) (k x : Nat) (h : k ≤ x) (hx : x ∈ m.keys) : x ∈ (m.eraseBelow k).keys := by
  obtain ⟨p, hp, rfl⟩ := List.mem_map.1 hx
  refine List.mem_map.2 ⟨p, List.mem_filter.2 ⟨hp, ?_⟩, rfl⟩
  simpa using h

theorem dropOutdated_keys {dbg : Bool} {id : Nat} {s s' : Dec} (h : s.dropOutdated dbg id = .ok s') :
    s'.sources = s.sources.eraseBelow id := by
  unfold Dec.dropOutdated at h
  simp only at h
  rw [bind_ok_iff] at h
  obtain ⟨s1, h1, h⟩ := h
  rw [bind_ok_iff] at h
  obtain ⟨s2, h2, h⟩ := h
  cases h
  obtain ⟨a, _, _⟩ := dropRepairs_src _ _ _ _ _ h1
  have c := (giveAllOutdated_C h2).sources
  show s2.sources.eraseBelow id = _
  rw [c, a]

/-- A repair whose sources are all held: only the window moves. -/
theorem onRepair_useless {gf : GF w} {dbg : Bool} {s : Dec} {r : DRepair} (hne : r.ids ≠ []) (hs : Sorted r.ids)
    (hr : s.repairs.has r.id = false) (hl : ∀ l, s.lastId = some l → l ≤ r.ids.getLast hne)
    (hall : ∀ x ∈ r.ids, s.Holds x) :
    s.onRepair gf dbg r = (s.dropOutdated dbg (r.ids.head hne)).map (fun s1 => { s1 with nbUseless := s1.nbUseless + 1 }) := by
  unfold Dec.onRepair
  rw [cassert_ok _ (by simpa using hne), List.getLast?_eq_getLast hne, List.head?_eq_some_head hne]
  simp only [bind, Except.bind]
  rw [if_neg, if_neg]
  · cases hd : s.dropOutdated dbg (r.ids.head hne) with
    | error e => rfl
    | ok s1 =>
      have hk := dropOutdated_keys hd
      simp only
      rw [if_pos]
      · rfl
      · rw [List.all_eq_true]
        intro x hx
        refine (has_iff _ _).2 ?_
        rw [hk]
        refine get?_eraseBelow _ _ _ ?_ (hall x hx)
        obtain ⟨a, t, e⟩ := List.exists_cons_of_ne_nil hne
        simp only [e, List.head_cons] at hx ⊢
        rw [e] at hs
        rcases List.mem_cons.1 hx with rfl | hx
        · exact Nat.le_refl _
        · exact Nat.le_of_lt ((List.pairwise_cons.1 hs).1 x hx)
  · rw [hr]; decide
  · intro hc
    cases hl' : s.lastId with
    | none => rw [hl'] at hc; cases hc
    | some l =>
      rw [hl'] at hc
      have := hl l hl'
      simp at hc
      omega

/-! ### What `drop_outdated` hands over is held -/

/-- The sources are the same, and the new events hand over sources held. -/
structure FromHeld (s s' : Dec) : Prop where
  src : s'.sources = s.sources
  new : ∀ ev ∈ s'.log.drop s.log.length, ∃ k, s.sources.get? k = some ⟨ev.id, ev.data⟩
  pre : s.log <+: s'.log

theorem FromHeld.refl {s s' : Dec} (h1 : s'.sources = s.sources) (h2 : s'.log = s.log) : FromHeld s s' :=
  ⟨h1, by rw [h2]; simp, by rw [h2]⟩

theorem FromHeld.trans {a b c : Dec} (h : FromHeld a b) (g : FromHeld b c) : FromHeld a c := by
  refine ⟨g.src.trans h.src, fun ev he => ?_, h.pre.trans g.pre⟩
  rw [drop_split h.pre g.pre, List.mem_append] at he
  rcases he with he | he
  · exact h.new ev he
  · obtain ⟨k, hk⟩ := g.new ev he
    exact ⟨k, by rw [← h.src]; exact hk⟩

theorem FromHeld.pre' {s0 s s' : Dec} (h : FromHeld s0 s') (h1 : s0.sources = s.sources) (h2 : s0.log = s.log) :
    FromHeld s s' := ⟨by rw [← h1]; exact h.src, by rw [← h1, ← h2]; exact h.new, by rw [← h2]; exact h.pre⟩

theorem callbackOrdered_fromHeld {s s' : Dec} {id : Nat} (h : s.callbackOrdered id = .ok s') : FromHeld s s' := by
  unfold Dec.callbackOrdered at h
  split at h
  · cases h
  · rename_i src hg
    cases h
    refine ⟨rfl, fun ev he => ?_, List.prefix_append _ _⟩
    simp only [Dec.callback, List.drop_left, List.mem_singleton] at he
    subst he
    exact ⟨id, hg⟩

theorem flushLoop_fromHeld (dbg : Bool) (l : List Nat) (s s' : Dec) (h : flushLoop dbg l s = .ok s') : FromHeld s s' := by
  induction l generalizing s with
  | nil => unfold flushLoop at h; cases h; exact FromHeld.refl rfl rfl
  | cons id rest ih =>
    unfold flushLoop at h
    rw [bind_ok_iff] at h
    obtain ⟨_, _, h⟩ := h
    rw [bind_ok_iff] at h
    obtain ⟨s1, h1, h⟩ := h
    refine (callbackOrdered_fromHeld h1).trans ?_
    simp only at h
    split at h
    · cases h; exact FromHeld.refl rfl rfl
    · split at h
      · cases h; exact FromHeld.refl rfl rfl
      · exact (ih _ h).pre' rfl rfl

theorem flush_fromHeld {dbg : Bool} {s s' : Dec} (h : s.flush dbg = .ok s') : FromHeld s s' := by
  unfold Dec.flush at h
  split at h
  · exact flushLoop_fromHeld _ _ _ _ h
  · cases h; exact FromHeld.refl rfl rfl

theorem giveOutdated_fromHeld (l : List Nat) (s s' : Dec) (h : giveOutdated l s = .ok s') : FromHeld s s' := by
  induction l generalizing s with
  | nil => unfold giveOutdated at h; cases h; exact FromHeld.refl rfl rfl
  | cons k t ih =>
    unfold giveOutdated at h
    rw [bind_ok_iff] at h
    obtain ⟨s1, h1, h⟩ := h
    exact (callbackOrdered_fromHeld h1).trans ((ih _ h).pre' rfl rfl)

theorem dropOutdated_fromHeld {dbg : Bool} {id : Nat} {s s' : Dec} (h : s.dropOutdated dbg id = .ok s') :
    (∀ ev ∈ s'.log.drop s.log.length, ∃ k, s.sources.get? k = some ⟨ev.id, ev.data⟩) ∧ s.log <+: s'.log ∧
    (s.inOrder = false → s'.log = s.log) ∧ s'.nbUseless = s.nbUseless ∧ s'.nbDecoded = s.nbDecoded ∧
    s'.nbFailed = s.nbFailed := by
  have he := dropOutdated_ext h
  unfold Dec.dropOutdated at h
  simp only at h
  rw [bind_ok_iff] at h
  obtain ⟨s1, h1, h⟩ := h
  rw [bind_ok_iff] at h
  obtain ⟨s2, h2, h⟩ := h
  cases h
  obtain ⟨a, b, _⟩ := dropRepairs_src _ _ _ _ _ h1
  simp only at a b
  have g : FromHeld s1 s2 := by
    unfold Dec.giveAllOutdated at h2
    split at h2
    · rw [bind_ok_iff] at h2
      obtain ⟨s3, h3, h2⟩ := h2
      exact (giveOutdated_fromHeld _ _ _ h3).trans ((flush_fromHeld h2).pre' rfl rfl)
    · cases h2; exact FromHeld.refl rfl rfl
  have hc := giveAllOutdated_C h2
  have hd : ∀ (l : OMap DRepair) (u u' : Dec), dropRepairs dbg id l u = .ok u' →
      u'.inOrder = u.inOrder ∧ u'.nbUseless = u.nbUseless ∧ u'.nbDecoded = u.nbDecoded ∧ u'.nbFailed = u.nbFailed := by
    intro l
    induction l with
    | nil => intro u u' hu; cases hu; exact ⟨rfl, rfl, rfl, rfl⟩
    | cons p t ih =>
      intro u u' hu
      obtain ⟨rid, r⟩ := p
      unfold dropRepairs at hu
      rw [bind_ok_iff] at hu
      obtain ⟨_, _, hu⟩ := hu
      split at hu
      · cases hu
      · split at hu
        · rw [bind_ok_iff] at hu
          obtain ⟨_, _, hu⟩ := hu
          rw [bind_ok_iff] at hu
          obtain ⟨m, _, hu⟩ := hu
          have := ih _ _ hu
          exact this
        · exact ih _ _ hu
  have hd' := hd _ _ _ h1
  simp only at hd'
  refine ⟨fun ev hev => ?_, he.log, fun hio => ?_, hc.useless.trans hd'.2.1, hc.dec.trans hd'.2.2.1,
    hc.failed.trans hd'.2.2.2⟩
  · obtain ⟨k, hk⟩ := g.new ev (by rw [b]; exact hev)
    exact ⟨k, by rw [← a]; exact hk⟩
  · unfold Dec.giveAllOutdated at h2
    rw [hd'.1, hio] at h2
    simp only [Bool.false_eq_true, ↓reduceIte] at h2
    cases h2
    exact b

/-! ## Singular matrices -/

/-- A failed decoding gives up the last repair. -/
theorem fullDecode_singular {gf : GF w} {dbg : Bool} {s : Dec} (hlen : s.missing.length = s.repairs.length)
    (hgt : 1 < s.repairs.length) (hlive : ∀ x l, s.missing.get? x = some l → ∀ rid ∈ l, rid ∈ s.repairs.keys) {c : Nat}
    (hi : invert gf s.repairs.length (coeffMatrix w s.repairs s.missing) = .error c) (hc : c = s.repairs.length - 1) :
    ∃ init rid r, s.repairs = init ++ [(rid, r)] ∧
      s.fullDecode gf dbg = .ok
        { s with nbFailed := s.nbFailed + 1, missing := unlinkOrCreate rid r.ids s.missing,
                 repairs := s.repairs.erase rid } := by
  have hne : s.repairs ≠ [] := by intro e; rw [e] at hgt; simp at hgt
  refine ⟨s.repairs.dropLast, (s.repairs.getLast hne).1, (s.repairs.getLast hne).2,
    (List.dropLast_append_getLast hne).symm, ?_⟩
  have hm : s.missing ≠ [] := by intro e; rw [e] at hlen; simp at hlen; omega
  unfold Dec.fullDecode
  rw [if_neg (by simp [hne, hm]), if_neg (by omega), cassert_ok _ (by simpa using hlen),
    cassert_ok _ (by rw [hlen]; simpa using hgt), hi]
  have he : ensure (s.missing.length == s.repairs.length) .staleRead = .ok () := by
    unfold ensure; rw [if_pos (by simpa using hlen)]
  rw [he]
  simp only [bind, Except.bind]
  have hg : s.repairs[c]? = some (s.repairs.getLast hne) := by
    rw [hc, ← List.getLast?_eq_getElem?, List.getLast?_eq_getLast hne]
  rw [hg]
  have hlv : ensure (linksAlive s.repairs s.missing (s.repairs.getLast hne).2.ids) .dangling = .ok () := by
    unfold ensure
    rw [if_pos ?_]
    unfold linksAlive
    rw [List.all_eq_true]
    intro x _
    rw [List.all_eq_true]
    intro rid hr
    cases hx : s.missing.get? x with
    | none => rw [hx] at hr; cases hr
    | some l => rw [hx] at hr; exact (has_iff _ _).2 (hlive x l hx rid hr)
  simp only [hlv]
  rfl

end Netcode
