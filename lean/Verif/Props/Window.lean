import Verif.Proofs.DecLow
import Verif.Props.Decoder

/-!
# What a decoder forgets

The first source a repair lists is the start of the window of the encoder: the decoder forgets what is older.
-/

namespace Netcode

variable {w : Nat}

/-! ## C52 -/

/-- **C52.** After any calls with any packets, a decoder holds no outdated source, waits for none, and keeps no repair
which lists one. -/
theorem C52_nothing_outdated {gf : GF w} {dbg : Bool} {clk : Clock} {io : Bool} {acts : List DAct} {d : NDec}
    (h : (NDec.init clk io).after gf dbg clk acts = .ok d) (x : Nat)
    (hx : d.det.Holds x ∨ x ∈ d.det.missing.keys ∨ ∃ p ∈ d.det.repairs, x ∈ p.2.ids) : ¬ d.det.Outdated x := by
  have hl := after_low h
  rintro ⟨l, h1, h2⟩
  rw [h1] at hl
  have : l ≤ x := by
    rcases hx with hx | hx | ⟨p, hp, hx⟩
    · exact hl.src x hx
    · exact hl.mis x hx
    · exact hl.rep p hp x hx
  omega

/-- **C52.** Outdated are the sources older than the first one of the last repair taken into account: a repair which is
neither held already nor wholly outdated. -/
theorem C52_repair_moves_window {gf : GF w} {dbg : Bool} {clk : Clock} {io : Bool} {acts : List DAct} {d d' : NDec}
    {p : List Byte} {r : DRepair} {n : Nat} (h : (NDec.init clk io).after gf dbg clk acts = .ok d)
    (hty : p.head? = some 1#8) (hp : readRepair p = .ok (r, n)) (h' : d.act gf dbg clk (.packet p) = .ok d')
    (hh : r.id ∉ d.det.repairs.keys) (ho : ∃ x ∈ r.ids, ¬ d.det.Outdated x) (x : Nat) :
    d'.det.Outdated x ↔ ∀ y ∈ r.ids, x < y := by
  have hs := readRepair_sorted hp
  have key : d.det.onRepair gf dbg r = .ok d'.det := by
    simp only [NDec.act, map_ok_iff] at h'
    obtain ⟨⟨d1, res⟩, h1, rfl⟩ := h'
    rw [NDec.notify_of_repair gf dbg clk d (by rw [type_of_head hty]; rfl), hp] at h1
    simp only [map_ok_iff] at h1
    obtain ⟨det', h2, h3⟩ := h1
    cases h3
    have e : (d.gotRepair.afterDet clk det').det = det' := afterDet_det (onRepair_ext h2).log
    rw [e]; exact h2
  rcases onRepair_low key hs (after_low h) with ⟨hc | hc, -⟩ | ⟨-, -, f, hf, hl⟩
  · obtain ⟨y, hy, l, hl1, hl2⟩ := hc
    obtain ⟨z, hz, hzo⟩ := ho
    refine absurd ⟨l, hl1, Nat.lt_of_le_of_lt ?_ hl2⟩ hzo
    obtain ⟨init, hinit⟩ := List.getLast?_eq_some_iff.1 (Option.mem_def.1 hy)
    rw [hinit] at hs hz
    rcases List.mem_append.1 hz with hz | hz
    · exact Nat.le_of_lt ((List.pairwise_append.1 hs).2.2 z hz y (List.mem_singleton.2 rfl))
    · exact Nat.le_of_eq (List.mem_singleton.1 hz)
  · exact absurd ((OMap.has_iff _ _).1 hc) hh
  · unfold Dec.Outdated
    rw [hl.last]
    cases hr : r.ids with
    | nil => rw [hr] at hf; cases hf
    | cons a t =>
      rw [hr] at hf hs
      cases hf
      simp only [Option.some.injEq, exists_eq_left', List.mem_cons, forall_eq_or_imp]
      constructor
      · intro hx
        exact ⟨hx, fun y hy => Nat.lt_trans hx ((List.pairwise_cons.1 hs).1 y hy)⟩
      · exact fun hx => hx.1

/-- **C52.** No other call changes which sources are outdated. -/
theorem C52_otherwise_unmoved {gf : GF w} {dbg : Bool} {clk : Clock} {io : Bool} {acts : List DAct} {d d' : NDec} {a : DAct}
    (h : (NDec.init clk io).after gf dbg clk acts = .ok d) (h' : d.act gf dbg clk a = .ok d')
    (ha : ∀ p r n, a = .packet p → p.head? = some 1#8 → readRepair p = .ok (r, n) →
      r.id ∈ d.det.repairs.keys ∨ ∀ x ∈ r.ids, d.det.Outdated x) (x : Nat) :
    d'.det.Outdated x ↔ d.det.Outdated x := by
  have e : d'.det.lastId = d.det.lastId := by
    rcases act_det h' with e | ⟨p, n, rfl, ⟨s, h1, h2, h3⟩ | ⟨r, h1, h2, h3⟩⟩
    · rw [e]
    · exact (onSource_low h3 rfl (after_low h)).last
    · rcases onRepair_low h3 (readRepair_sorted h2) (after_low h) with ⟨-, e⟩ | ⟨⟨y, hy, hyo⟩, hn, -⟩
      · rw [e]
      · exfalso
        rcases ha p r n rfl h1 h2 with hc | hc
        · rw [(OMap.has_iff _ _).2 hc] at hn; cases hn
        · exact hyo (hc y (List.mem_of_getLast? (Option.mem_def.1 hy)))
  unfold Dec.Outdated
  rw [e]

/-- Repair {0,1,2,3} leaves sources 1 and 3 missing; repair {4,5,6,7} makes the decoder forget them, the repair and
the two sources it held. -/
example : (((NDec.init clk0 false).after gf8 true clk0 (give [0, 2, 4])).map (fun d =>
      (d.det.sources.keys, d.det.missing.keys, d.det.repairs.keys, d.det.lastId))).toOption =
      some ([0, 2], [1, 3], [0], some 0) ∧
    (((NDec.init clk0 false).after gf8 true clk0 (give [0, 2, 4, 9])).map (fun d =>
      (d.det.sources.keys, d.det.missing.keys, d.det.repairs.keys, d.det.lastId))).toOption =
      some ([], [4, 5, 6, 7], [1], some 4) := by decide +kernel

/-! ## C30, by the packets received -/

/-- **C30.** After any calls with any packets, and a repair which is taken into account, a source packet older than all the
sources this repair lists changes nothing but the counters of received packets. -/
theorem C30_older_source_ignored {gf : GF w} {dbg : Bool} {clk : Clock} {io : Bool} {acts : List DAct} {d d' : NDec}
    {p q : List Byte} {r : DRepair} {src : DSource} {n m : Nat} (h : (NDec.init clk io).after gf dbg clk acts = .ok d)
    (hty : p.head? = some 1#8) (hp : readRepair p = .ok (r, n)) (h' : d.act gf dbg clk (.packet p) = .ok d')
    (hh : r.id ∉ d.det.repairs.keys) (ho : ∃ x ∈ r.ids, ¬ d.det.Outdated x) (htq : q.head? = some 2#8)
    (hq : readSource q = .ok (src, m)) (hold : ∀ y ∈ r.ids, src.id < y) :
    d'.notify gf dbg clk q = .ok
      ({ d' with nbSources := d'.nbSources + 1, ackPackets := (d'.ackPackets + 1) % 2 ^ 16 }, .ok m) :=
  C30_source_ignored gf dbg clk d' q src m htq hq (Or.inr ((C52_repair_moves_window h hty hp h' hh ho src.id).2 hold))

/-- **C30.** The same for a second repair which lists only older sources. -/
theorem C30_older_repair_ignored {gf : GF w} {dbg : Bool} {clk : Clock} {io : Bool} {acts : List DAct} {d d' : NDec}
    {p q : List Byte} {r r' : DRepair} {n m : Nat} (h : (NDec.init clk io).after gf dbg clk acts = .ok d)
    (hty : p.head? = some 1#8) (hp : readRepair p = .ok (r, n)) (h' : d.act gf dbg clk (.packet p) = .ok d')
    (hh : r.id ∉ d.det.repairs.keys) (ho : ∃ x ∈ r.ids, ¬ d.det.Outdated x) (htq : q.head? = some 1#8)
    (hq : readRepair q = .ok (r', m)) (hne : r'.ids ≠ []) (hold : ∀ x ∈ r'.ids, ∀ y ∈ r.ids, x < y) :
    d'.notify gf dbg clk q = .ok
      ({ d' with nbRepairs := d'.nbRepairs + 1, ackPackets := (d'.ackPackets + 1) % 2 ^ 16 }, .ok m) :=
  C30_repair_ignored gf dbg clk d' q r' m htq hq hne
    (Or.inr fun x hx => (C52_repair_moves_window h hty hp h' hh ho x).2 (hold x hx))

/-- Source 1, which was missing, and the repair {0,1,2,3} arrive after the repair {4,5,6,7}. -/
example : ((NDec.init clk0 false).after gf8 true clk0 (give [0, 2, 4, 9, 1, 4])).toOption.map (fun d =>
      (d.data.length, d.nbSources, d.nbRepairs, d.det.missing.keys)) = some (2, 3, 3, [4, 5, 6, 7]) := by decide +kernel

end Netcode
