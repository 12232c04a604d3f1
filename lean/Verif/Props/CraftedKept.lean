import Verif.Props.Crafted
import Verif.Props.Faults
import Verif.Proofs.CraftedKept

/-!
# C07: made-up repairs for decoders that hold repairs
-/

namespace Netcode

variable {w : Nat}

/-- **C07**, repairs, on decoders that hold repairs. A decoder was given any bytes and calls; if it gives data in order, the source that is next and
the ones that are withheld are not older than the first of the newest repair, and the next one is not withheld. Then comes a whole repair packet, be
it crafted, that begins with the same source as the newest repair, is not held, lists two or more sources that the decoder does not hold, and leaves
it with fewer repairs than missing sources, so that nothing can be decoded. It is handled without a fault exactly if the sources it lists that the
decoder holds are not longer than its symbol (in a release build: than the rest of the packet) and whole numbers of elements of the field, and the
missing sources that it lists are only known to be in repairs that are still held. Missing: repairs that begin with another source, and those with
which something is decoded. -/
theorem C07_kept_iff_partial (gf : GF w) (dbg : Bool) (clk : Clock) {io : Bool} {acts : List DAct} {d : NDec}
    (h : (NDec.init clk io).after gf dbg clk acts = .ok d) (hne : ∀ q ∈ d.det.repairs, q.2.ids ≠ [])
    (p : List Byte) (r : DRepair) (n : Nat) (hp : p.head? = some 1#8) (hr : readRepair p = .ok (r, n)) (id : Nat)
    (hfirst : r.ids.head? = some id) (hlast : d.det.lastId = some id) (hnew : r.id ∉ d.det.repairs.keys)
    (hu : 2 ≤ (r.unknown d.det.sources).length)
    (hord : io = true → (∀ k ∈ d.det.ordered, id ≤ k) ∧ id ≤ d.det.firstMissing ∧ d.det.firstMissing ∉ d.det.ordered)
    (hfew : d.det.repairs.length + 1 < (d.det.missing.keys.toFinset ∪ (r.unknown d.det.sources).toFinset).card) :
    (∃ d', d.act gf dbg clk (.packet p) = .ok d') ↔
      (∀ v ∈ r.known d.det.sources, r.Takes w dbg v.sym.length) ∧
      ∀ x ∈ r.unknown d.det.sources, ∀ l, d.det.missing.get? x = some l → ∀ i ∈ l, i ∈ d.det.repairs.keys := by
  have hl := after_low h
  rw [hlast] at hl
  have key := onRepair_kept_iff gf dbg d.det r id (fun hi => hord ((after_mode h).symm.trans hi)) hlast (by rw [hlast]; exact hl) hne (readRepair_sorted hr) (readRepair_fits hr)
    hfirst hnew hu hfew
  have ht : getPacketType p = .ok .repair := by rw [type_of_head hp]; rfl
  have he : d.act gf dbg clk (.packet p) = (d.det.onRepair gf dbg r).map (fun det' => d.gotRepair.afterDet clk det') := by
    simp only [NDec.act]
    rw [NDec.notify_of_repair gf dbg clk d ht, hr]
    simp only
    cases d.det.onRepair gf dbg r <;> rfl
  rw [he, ← key]
  constructor
  · rintro ⟨z, hz⟩
    obtain ⟨y, hy, -⟩ := map_ok_iff.1 hz
    exact ⟨y, hy⟩
  · rintro ⟨y, hy⟩
    exact ⟨_, map_ok_iff.2 ⟨y, hy, rfl⟩⟩

/-- **C07**, repairs that bring nothing new, on decoders that hold repairs: whatever a decoder was given before, a whole repair packet is handled
without a fault, be it crafted, if all sources it lists are outdated; or if it lists a source and a repair of its number is held; or if it begins with
the same source as the newest repair and all sources it lists are held (with ordering: and, as above, the next source and the withheld ones are not older
than that one, and the next one is not withheld). -/
theorem C07_nothing_new_partial (gf : GF w) (dbg : Bool) (clk : Clock) {io : Bool} {acts : List DAct} {d : NDec}
    (h : (NDec.init clk io).after gf dbg clk acts = .ok d) (hne : ∀ q ∈ d.det.repairs, q.2.ids ≠ [])
    (p : List Byte) (r : DRepair) (n : Nat) (hp : p.head? = some 1#8) (hr : readRepair p = .ok (r, n)) (hids : r.ids ≠ [])
    (hc : (∃ l, d.det.lastId = some l ∧ ∀ x ∈ r.ids, x < l) ∨ r.id ∈ d.det.repairs.keys ∨
      (io = true → ∀ id, d.det.lastId = some id → (∀ k ∈ d.det.ordered, id ≤ k) ∧ id ≤ d.det.firstMissing ∧ d.det.firstMissing ∉ d.det.ordered) ∧
      r.ids.head? = d.det.lastId ∧ ∀ x ∈ r.ids, x ∈ d.det.sources.keys) :
    ∃ d', d.act gf dbg clk (.packet p) = .ok d' ∧ d'.data = d.data := by
  have ht : getPacketType p = .ok .repair := by rw [type_of_head hp]; rfl
  have he : d.act gf dbg clk (.packet p) = (d.det.onRepair gf dbg r).map (fun det' => d.gotRepair.afterDet clk det') := by
    simp only [NDec.act]
    rw [NDec.notify_of_repair gf dbg clk d ht, hr]
    simp only
    cases d.det.onRepair gf dbg r <;> rfl
  obtain ⟨s', hs, hlog⟩ : ∃ s', d.det.onRepair gf dbg r = .ok s' ∧ s'.log = d.det.log := by
    obtain ⟨lst, hlst⟩ : ∃ a, r.ids.getLast? = some a := ⟨_, List.getLast?_eq_getLast_of_ne_nil hids⟩
    obtain ⟨fst, hfst⟩ : ∃ a, r.ids.head? = some a := by
      cases h : r.ids with
      | nil => exact absurd h hids
      | cons a t => exact ⟨a, rfl⟩
    unfold Dec.onRepair
    rw [cassert_ok _ (by cases h : r.ids with
      | nil => exact absurd h hids
      | cons a t => rfl), hlst, hfst]
    simp only [bind, Except.bind]
    by_cases h1 : d.det.lastId.any (fun l => decide (lst < l)) = true
    · rw [if_pos h1]; exact ⟨_, rfl, rfl⟩
    rw [if_neg h1]
    by_cases h2 : d.det.repairs.has r.id = true
    · rw [if_pos h2]; exact ⟨_, rfl, rfl⟩
    rw [if_neg h2]
    rcases hc with ⟨l, hl, hx⟩ | hc | ⟨h0, h3, h4⟩
    · exact absurd (by rw [hl]; simpa using hx lst (List.mem_of_getLast? hlst)) h1
    · exact absurd ((OMap.has_iff _ _).2 hc) h2
    · have hl := after_low h
      rw [hfst] at h3
      rw [← h3] at hl
      rw [dropOutdated_none dbg fst d.det (fun hi => h0 ((after_mode h).symm.trans hi) fst h3.symm) h3.symm (by rw [← h3]; exact hl) hne]
      simp only
      rw [if_pos (List.all_eq_true.2 fun x hx => (OMap.has_iff _ _).2 (h4 x hx))]
      exact ⟨_, rfl, rfl⟩
  refine ⟨_, by rw [he, hs]; rfl, ?_⟩
  unfold NDec.afterDet
  simp only
  rw [show s'.log.drop d.gotRepair.det.log.length = [] by rw [hlog]; exact List.drop_length]
  rfl

/-- **C07**, sources, on decoders that hold repairs: a decoder that gives data in any order was given any bytes and calls, and holds fewer repairs than it misses
sources, none of them of one source alone.  A source packet, be it crafted, for which no repair waits, is handled without a fault if no missing source
is only known to be in a repair that is no longer held; its datum is handed over. -/
theorem C07_other_source_partial (gf : GF w) (dbg : Bool) (clk : Clock) {acts : List DAct} {d : NDec}
    (h : (NDec.init clk false).after gf dbg clk acts = .ok d) (h1 : ∀ q ∈ d.det.repairs, q.2.ids.length ≠ 1)
    (hfew : d.det.repairs = [] ∨ d.det.missing = [] ∨ d.det.repairs.length < d.det.missing.length)
    (hlinks : ∀ x i, d.det.missing.get? x = some [i] → i ∈ d.det.repairs.keys)
    (p : List Byte) (src : DSource) (n : Nat) (hp : p.head? = some 2#8) (hr : readSource p = .ok (src, n)) (hm : src.id ∉ d.det.missing.keys) :
    ∃ d', d.act gf dbg clk (.packet p) = .ok d' ∧
      d'.data = if d.det.Outdated src.id ∨ d.det.Holds src.id then d.data else d.data ++ [src.sym] := by
  have ht : getPacketType p = .ok .source := by rw [type_of_head hp]; rfl
  have he : d.act gf dbg clk (.packet p) = (d.det.onSource gf dbg src).map (fun det' => d.gotSource.afterDet clk det') := by
    simp only [NDec.act]
    rw [NDec.notify_of_source gf dbg clk d ht, hr]
    simp only
    cases d.det.onSource gf dbg src <;> rfl
  have hdata : d.data = d.det.log.map (·.data) := (counts_after (counts_init clk false) h).data
  have hout : d.det.Outdated src.id ↔ d.det.lastId.any (fun l => decide (src.id < l)) = true := by
    unfold Dec.Outdated
    rw [Option.any_eq_true]
    simp
  have key : ∃ s', d.det.onSource gf dbg src = .ok s' ∧ s'.log.map (·.data) =
      if d.det.Outdated src.id ∨ d.det.Holds src.id then d.det.log.map (·.data) else d.det.log.map (·.data) ++ [src.sym] := by
    by_cases h2 : d.det.lastId.any (fun l => decide (src.id < l)) = true
    · refine ⟨d.det, ?_, by rw [if_pos (.inl (hout.2 h2))]⟩
      unfold Dec.onSource
      rw [if_pos h2]
    by_cases h3 : d.det.sources.has src.id = true
    · refine ⟨d.det, ?_, by rw [if_pos (.inr ((OMap.has_iff _ _).1 h3))]⟩
      unfold Dec.onSource
      rw [if_neg h2, if_pos h3]
    refine ⟨_, onSource_pass gf dbg d.det src (after_mode h) (by simpa using h2) (by simpa using h3) ?_ (fun x rid hx => ?_) hfew, ?_⟩
    · exact (OMap.get?_eq_none_iff _ _).2 hm
    · obtain ⟨r, hr⟩ := (OMap.get?_isSome_iff _ _).2 (hlinks x rid hx)
      exact ⟨r, hr, h1 _ (OMap.mem_of_get? hr)⟩
    · rw [if_neg (by
        rintro (h4 | h4)
        · exact h2 (hout.1 h4)
        · exact h3 ((OMap.has_iff _ _).2 h4))]
      simp [Dec.callback]
  obtain ⟨s', hs, hlog⟩ := key
  refine ⟨_, by rw [he, hs]; rfl, ?_⟩
  rw [hdata, ← hlog]
  exact (afterDet_step clk d.gotSource s' (onSource_ext hs).log).2.2 hdata

/-- **C07**, sources that are known, on decoders that hold repairs: whatever a decoder was given before, a source packet, be it crafted, of a source that
is outdated or held is handled without a fault and hands over nothing. -/
theorem C07_known_source_partial (gf : GF w) (dbg : Bool) (clk : Clock) {io : Bool} {acts : List DAct} {d : NDec}
    (h : (NDec.init clk io).after gf dbg clk acts = .ok d)
    (p : List Byte) (src : DSource) (n : Nat) (hp : p.head? = some 2#8) (hr : readSource p = .ok (src, n))
    (hk : d.det.Outdated src.id ∨ d.det.Holds src.id) :
    ∃ d', d.act gf dbg clk (.packet p) = .ok d' ∧ d'.data = d.data := by
  have ht : getPacketType p = .ok .source := by rw [type_of_head hp]; rfl
  have he : d.act gf dbg clk (.packet p) = (d.det.onSource gf dbg src).map (fun det' => d.gotSource.afterDet clk det') := by
    simp only [NDec.act]
    rw [NDec.notify_of_source gf dbg clk d ht, hr]
    simp only
    cases d.det.onSource gf dbg src <;> rfl
  have hdata : d.data = d.det.log.map (·.data) := (counts_after (counts_init clk io) h).data
  have hs : d.det.onSource gf dbg src = .ok d.det := by
    unfold Dec.onSource
    rcases hk with ⟨l, hl, hlt⟩ | hk
    · rw [if_pos (by rw [hl]; simpa using hlt)]
    · split
      · rfl
      · rw [if_pos ((OMap.has_iff _ _).2 hk)]
  refine ⟨_, by rw [he, hs]; rfl, ?_⟩
  rw [hdata]
  exact (afterDet_step clk d.gotSource d.det (onSource_ext hs).log).2.2 hdata

/-- **C07**, sources on decoders that hold repairs and give data in order: as above, a source packet, be it crafted, for which no repair waits and behind
which no source is withheld is handled without a fault; its datum is handed over if it is the next one. -/
theorem C07_ordered_source_partial (gf : GF w) (dbg : Bool) (clk : Clock) {acts : List DAct} {d : NDec}
    (h : (NDec.init clk true).after gf dbg clk acts = .ok d) (h1 : ∀ q ∈ d.det.repairs, q.2.ids.length ≠ 1)
    (hfew : d.det.repairs = [] ∨ d.det.missing = [] ∨ d.det.repairs.length < d.det.missing.length)
    (hlinks : ∀ x i, d.det.missing.get? x = some [i] → i ∈ d.det.repairs.keys)
    (p : List Byte) (src : DSource) (n : Nat) (hp : p.head? = some 2#8) (hr : readSource p = .ok (src, n)) (hm : src.id ∉ d.det.missing.keys)
    (hno : src.id = d.det.firstMissing → (src.id + 1) % 2 ^ 32 ∉ d.det.ordered) :
    ∃ d', d.act gf dbg clk (.packet p) = .ok d' ∧
      d'.data = if d.det.Outdated src.id ∨ d.det.Holds src.id then d.data
        else if src.id = d.det.firstMissing then d.data ++ [src.sym] else d.data := by
  by_cases hk : d.det.Outdated src.id ∨ d.det.Holds src.id
  · rw [if_pos hk]
    exact C07_known_source_partial gf dbg clk h p src n hp hr hk
  rw [if_neg hk]
  have ht : getPacketType p = .ok .source := by rw [type_of_head hp]; rfl
  have he : d.act gf dbg clk (.packet p) = (d.det.onSource gf dbg src).map (fun det' => d.gotSource.afterDet clk det') := by
    simp only [NDec.act]
    rw [NDec.notify_of_source gf dbg clk d ht, hr]
    simp only
    cases d.det.onSource gf dbg src <;> rfl
  have hdata : d.data = d.det.log.map (·.data) := (counts_after (counts_init clk true) h).data
  have h2 : d.det.lastId.any (fun l => decide (src.id < l)) = false := by
    rw [← Bool.not_eq_true]
    intro h2
    rw [Option.any_eq_true] at h2
    obtain ⟨l, hl, hlt⟩ := h2
    exact hk (.inl ⟨l, hl, by simpa using hlt⟩)
  have h3 : d.det.sources.has src.id = false := by
    rw [← Bool.not_eq_true]
    exact fun h3 => hk (.inr ((OMap.has_iff _ _).1 h3))
  obtain ⟨s1, hg, k1, k2, k3, k4⟩ := giveNew_alone dbg d.det src (after_mode h) hno
  obtain ⟨s', hs, hlog⟩ := onSource_given gf dbg d.det s1 src hg k1 k2 k3 h2 h3 ((OMap.get?_eq_none_iff _ _).2 hm) (fun x rid hx => by
    obtain ⟨r, hr⟩ := (OMap.get?_isSome_iff _ _).2 (hlinks x rid hx)
    exact ⟨r, hr, h1 _ (OMap.mem_of_get? hr)⟩) hfew
  refine ⟨_, by rw [he, hs]; rfl, ?_⟩
  rw [hdata, ← k4, ← hlog]
  exact (afterDet_step clk d.gotSource s' (onSource_ext hs).log).2.2 hdata

/-- **C07**, sources that repairs wait for, on decoders that hold repairs.  A decoder was given any bytes and calls.  Then
comes a new source packet, be it crafted, of a source that is missing and in the repairs `links`.  These are still held, list the source and two others
at least, and the decoder still misses more sources than it holds repairs, so that nothing can be decoded; and if the decoder gives data in order, none is withheld behind the new one.  The packet is handled without a fault,
and its datum handed over (with ordering: if it is the next one), exactly if the datum is not longer than the symbols of these repairs (in a release build: than the rest of their packets) and a
whole number of elements of the field. -/
theorem C07_awaited_iff_partial (gf : GF w) (dbg : Bool) (clk : Clock) {io : Bool} {acts : List DAct} {d : NDec}
    (h : (NDec.init clk io).after gf dbg clk acts = .ok d) (h1 : ∀ q ∈ d.det.repairs, q.2.ids.length ≠ 1)
    (hlinks : ∀ x i, d.det.missing.get? x = some [i] → i ∈ d.det.repairs.keys)
    (p : List Byte) (src : DSource) (n : Nat) (hp : p.head? = some 2#8) (hr : readSource p = .ok (src, n))
    (hk : ¬ d.det.Outdated src.id ∧ ¬ d.det.Holds src.id) (links : List Nat) (hm : d.det.missing.get? src.id = some links) (hnd : links.Nodup)
    (hw : ∀ i ∈ links, ∃ r, d.det.repairs.get? i = some r ∧ src.id ∈ r.ids ∧ 2 < r.ids.length ∧ r.symSize ≤ r.buf.length)
    (hno : io = true → src.id = d.det.firstMissing → (src.id + 1) % 2 ^ 32 ∉ d.det.ordered)
    (hfew : d.det.repairs.length < (d.det.missing.erase src.id).length) :
    (∃ d', d.act gf dbg clk (.packet p) = .ok d' ∧
      d'.data = if io = true ∧ src.id ≠ d.det.firstMissing then d.data else d.data ++ [src.sym]) ↔
      ∀ i ∈ links, ∀ r, d.det.repairs.get? i = some r → r.Takes w dbg src.sym.length := by
  have ht : getPacketType p = .ok .source := by rw [type_of_head hp]; rfl
  have he : d.act gf dbg clk (.packet p) = (d.det.onSource gf dbg src).map (fun det' => d.gotSource.afterDet clk det') := by
    simp only [NDec.act]
    rw [NDec.notify_of_source gf dbg clk d ht, hr]
    simp only
    cases d.det.onSource gf dbg src <;> rfl
  have hdata : d.data = d.det.log.map (·.data) := (counts_after (counts_init clk io) h).data
  have h2 : d.det.lastId.any (fun l => decide (src.id < l)) = false := by
    rw [← Bool.not_eq_true]
    intro h2
    rw [Option.any_eq_true] at h2
    obtain ⟨l, hl, hlt⟩ := h2
    exact hk.1 ⟨l, hl, by simpa using hlt⟩
  have h3 : d.det.sources.has src.id = false := by
    rw [← Bool.not_eq_true]
    exact fun h3 => hk.2 ((OMap.has_iff _ _).1 h3)
  obtain ⟨s1, hg, k1, k2, k3, k4⟩ : ∃ s1, d.det.giveNew dbg src = .ok s1 ∧ s1.missing = d.det.missing ∧ s1.repairs = d.det.repairs ∧
      s1.sources = d.det.sources ∧ s1.log.map (·.data) =
        if io = true ∧ src.id ≠ d.det.firstMissing then d.det.log.map (·.data) else d.det.log.map (·.data) ++ [src.sym] := by
    cases io with
    | false =>
      refine ⟨d.det.callback src, ?_, rfl, rfl, rfl, by simp [Dec.callback]⟩
      unfold Dec.giveNew
      rw [if_pos (by rw [after_mode h]; rfl)]
    | true =>
      obtain ⟨s1, hg, k1, k2, k3, k4⟩ := giveNew_alone dbg d.det src (after_mode h) (hno rfl)
      refine ⟨s1, hg, k1, k2, k3, k4.trans ?_⟩
      by_cases e : src.id = d.det.firstMissing <;> simp [e]
  obtain ⟨m1, m2⟩ := onSource_awaited gf dbg d.det s1 src hg k1 k2 k3 links h2 h3 hm hnd hw (fun x rid hx => by
    obtain ⟨r, hr⟩ := (OMap.get?_isSome_iff _ _).2 (hlinks x rid hx)
    exact ⟨r, hr, h1 _ (OMap.mem_of_get? hr)⟩) hfew
  rw [← m1]
  constructor
  · rintro ⟨d', hd, -⟩
    rw [he] at hd
    obtain ⟨s', hs, -⟩ := map_ok_iff.1 hd
    exact ⟨s', hs⟩
  · rintro ⟨s', hs⟩
    refine ⟨_, by rw [he, hs]; rfl, ?_⟩
    have hlog := m2 s' hs
    rw [hdata, ← k4, ← hlog]
    exact (afterDet_step clk d.gotSource s' (onSource_ext hs).log).2.2 hdata

/-- **C07**, the next source on decoders that hold repairs and give data in order: as above, but sources may be withheld behind it, as long as they are
held and in order.  It is handled without a fault, and its datum is handed over first of all. -/
theorem C07_next_source_partial (gf : GF w) (dbg : Bool) (clk : Clock) {acts : List DAct} {d : NDec}
    (h : (NDec.init clk true).after gf dbg clk acts = .ok d) (h1 : ∀ q ∈ d.det.repairs, q.2.ids.length ≠ 1)
    (hfew : d.det.repairs = [] ∨ d.det.missing = [] ∨ d.det.repairs.length < d.det.missing.length)
    (hlinks : ∀ x i, d.det.missing.get? x = some [i] → i ∈ d.det.repairs.keys)
    (p : List Byte) (src : DSource) (n : Nat) (hp : p.head? = some 2#8) (hr : readSource p = .ok (src, n)) (hm : src.id ∉ d.det.missing.keys)
    (hk : ¬ d.det.Outdated src.id ∧ ¬ d.det.Holds src.id) (hfm : src.id = d.det.firstMissing)
    (hord : d.det.ordered.Pairwise (· < ·) ∧ ∀ k ∈ d.det.ordered, src.id < k ∧ d.det.Holds k) :
    ∃ d', d.act gf dbg clk (.packet p) = .ok d' ∧ d.data ++ [src.sym] <+: d'.data := by
  have ht : getPacketType p = .ok .source := by rw [type_of_head hp]; rfl
  have he : d.act gf dbg clk (.packet p) = (d.det.onSource gf dbg src).map (fun det' => d.gotSource.afterDet clk det') := by
    simp only [NDec.act]
    rw [NDec.notify_of_source gf dbg clk d ht, hr]
    simp only
    cases d.det.onSource gf dbg src <;> rfl
  have hdata : d.data = d.det.log.map (·.data) := (counts_after (counts_init clk true) h).data
  have h2 : d.det.lastId.any (fun l => decide (src.id < l)) = false := by
    rw [← Bool.not_eq_true]
    intro h2
    rw [Option.any_eq_true] at h2
    obtain ⟨l, hl, hlt⟩ := h2
    exact hk.1 ⟨l, hl, by simpa using hlt⟩
  have h3 : d.det.sources.has src.id = false := by
    rw [← Bool.not_eq_true]
    exact fun h3 => hk.2 ((OMap.has_iff _ _).1 h3)
  obtain ⟨s1, hg, k1, k2, k3, k4⟩ := giveNew_next dbg d.det src (after_mode h) hfm hord.1 (fun k hk => hfm ▸ (hord.2 k hk).1)
    (fun k hk => (hord.2 k hk).2)
  obtain ⟨s', hs, hlog⟩ := onSource_given gf dbg d.det s1 src hg k1 k2 k3 h2 h3 ((OMap.get?_eq_none_iff _ _).2 hm) (fun x rid hx => by
    obtain ⟨r, hr⟩ := (OMap.get?_isSome_iff _ _).2 (hlinks x rid hx)
    exact ⟨r, hr, h1 _ (OMap.mem_of_get? hr)⟩) hfew
  refine ⟨_, by rw [he, hs]; rfl, ?_⟩
  rw [(afterDet_step clk d.gotSource s' (onSource_ext hs).log).2.2 hdata, hlog, hdata]
  exact k4

/-- A decoder with a source of 3 bytes and a made-up repair of the sources 0 to 4, and two more repairs of these: one without a symbol, which cannot
take the source, and one with 3 bytes. -/
def threeBytes : List Byte := [2, 0, 0, 0, 0, 0, 3, 1, 2, 3]
def wide (id : Nat) (sym : List Byte) : List Byte := (writeRepair ⟨id, [0, 1, 2, 3, 4], 0#16, sym⟩).flatten

example (dbg io : Bool) : ∃ d, (NDec.init clk0 io).after gf8 dbg clk0 [.packet threeBytes, .packet (wide 7 [5, 6, 7])] = .ok d ∧
    (∀ q ∈ d.det.repairs, q.2.ids ≠ []) ∧ d.det.lastId = some 0 ∧ d.det.repairs.length = 1 ∧
    ((∀ k ∈ d.det.ordered, 0 ≤ k) ∧ 0 ≤ d.det.firstMissing ∧ d.det.firstMissing ∉ d.det.ordered) ∧
    (∃ r n, readRepair (wide 8 [5, 6, 7]) = .ok (r, n) ∧ r.ids.head? = some 0 ∧ r.id ∉ d.det.repairs.keys ∧
      2 ≤ (r.unknown d.det.sources).length ∧
      d.det.repairs.length + 1 < (d.det.missing.keys.toFinset ∪ (r.unknown d.det.sources).toFinset).card) ∧
    7 ∈ d.det.repairs.keys ∧ (∃ d', d.act gf8 dbg clk0 (.packet (wide 8 [5, 6, 7])) = .ok d') ∧
    (dbg = true → d.act gf8 dbg clk0 (.packet (wide 8 [])) = .error .assertion) := by
  have hv : ((NDec.init clk0 io).after gf8 dbg clk0 [.packet threeBytes, .packet (wide 7 [5, 6, 7])]).toOption.any (fun d =>
      decide ((∀ q ∈ d.det.repairs, q.2.ids ≠ []) ∧ d.det.lastId = some 0 ∧ d.det.repairs.length = 1 ∧ 7 ∈ d.det.repairs.keys) &&
      decide (d.det.firstMissing ∉ d.det.ordered) &&
      (readRepair (wide 8 [5, 6, 7])).toOption.any (fun z => decide (z.1.ids.head? = some 0 ∧ z.1.id ∉ d.det.repairs.keys ∧
        2 ≤ (z.1.unknown d.det.sources).length ∧
        d.det.repairs.length + 1 < (d.det.missing.keys.toFinset ∪ (z.1.unknown d.det.sources).toFinset).card)) &&
      (d.act gf8 dbg clk0 (.packet (wide 8 [5, 6, 7]))).toOption.isSome &&
      (!dbg || decide (faultOf (d.act gf8 dbg clk0 (.packet (wide 8 []))) = some .assertion))) = true := by
    revert dbg io; decide +kernel
  revert hv
  cases (NDec.init clk0 io).after gf8 dbg clk0 [.packet threeBytes, .packet (wide 7 [5, 6, 7])] with
  | error e => intro hv; cases hv
  | ok d =>
    intro hv
    simp only [Except.toOption, Option.any_some, Bool.and_eq_true, decide_eq_true_eq, Bool.or_eq_true, Bool.not_eq_true'] at hv
    obtain ⟨⟨⟨⟨⟨h1, h2, h3, h7⟩, h8⟩, h4⟩, h5⟩, h6⟩ := hv
    refine ⟨d, rfl, h1, h2, h3, ⟨fun _ _ => Nat.zero_le _, Nat.zero_le _, h8⟩, ?_, h7, ?_, fun hd => ?_⟩
    · revert h4
      cases hr : readRepair (wide 8 [5, 6, 7]) with
      | error e => intro h4; cases h4
      | ok z =>
        intro h4
        obtain ⟨r, n⟩ := z
        simp only [Option.any_some, decide_eq_true_eq] at h4
        exact ⟨r, n, rfl, h4⟩
    · revert h5
      cases d.act gf8 dbg clk0 (.packet (wide 8 [5, 6, 7])) with
      | error e => intro h5; cases h5
      | ok d' => intro _; exact ⟨d', rfl⟩
    · rcases h6 with h6 | h6
      · rw [hd] at h6; cases h6
      · exact eq_of_faultOf h6

/-- The same decoder and a source that no repair lists. -/
def ninth : List Byte := [2, 0, 0, 0, 9, 0, 2, 8, 9]

example (dbg : Bool) : ∃ d, (NDec.init clk0 false).after gf8 dbg clk0 [.packet threeBytes, .packet (wide 7 [5, 6, 7])] = .ok d ∧
    (∀ q ∈ d.det.repairs, q.2.ids.length ≠ 1) ∧ d.det.repairs.length = 1 ∧ d.det.repairs.length < d.det.missing.length ∧
    (∀ x i, d.det.missing.get? x = some [i] → i ∈ d.det.repairs.keys) ∧ d.det.missing.get? 1 = some [7] ∧
    ninth.head? = some 2#8 ∧ readSource ninth = .ok (⟨9, [8, 9]⟩, 9) ∧ 9 ∉ d.det.missing.keys ∧
    ¬ d.det.Outdated 9 ∧ ¬ d.det.Holds 9 := by
  have hv : ((NDec.init clk0 false).after gf8 dbg clk0 [.packet threeBytes, .packet (wide 7 [5, 6, 7])]).toOption.any (fun d =>
      decide ((∀ q ∈ d.det.repairs, q.2.ids.length ≠ 1) ∧ d.det.repairs.length = 1 ∧ d.det.repairs.length < d.det.missing.length ∧
        (∀ q ∈ d.det.missing, ∀ i ∈ q.2, i ∈ d.det.repairs.keys) ∧ d.det.missing.get? 1 = some [7] ∧ 9 ∉ d.det.missing.keys) &&
      decide (d.det.lastId = some 0 ∧ 9 ∉ d.det.sources.keys)) = true := by
    revert dbg; decide +kernel
  revert hv
  cases (NDec.init clk0 false).after gf8 dbg clk0 [.packet threeBytes, .packet (wide 7 [5, 6, 7])] with
  | error e => intro hv; cases hv
  | ok d =>
    intro hv
    simp only [Except.toOption, Option.any_some, Bool.and_eq_true, decide_eq_true_eq] at hv
    obtain ⟨⟨h1, h2, h3, h4, h5, h6⟩, h7, h8⟩ := hv
    refine ⟨d, rfl, h1, h2, h3, fun x i hx => h4 _ (OMap.mem_of_get? hx) i (by simp), h5, rfl, by decide, h6, ?_, h8⟩
    rintro ⟨l, hl, hlt⟩
    rw [h7] at hl
    cases hl
    omega

/-- The same with a decoder that gives data in order. -/
example (dbg : Bool) : ∃ d, (NDec.init clk0 true).after gf8 dbg clk0 [.packet threeBytes, .packet (wide 7 [5, 6, 7])] = .ok d ∧
    (∀ q ∈ d.det.repairs, q.2.ids.length ≠ 1) ∧ d.det.repairs.length = 1 ∧ d.det.repairs.length < d.det.missing.length ∧
    (∀ x i, d.det.missing.get? x = some [i] → i ∈ d.det.repairs.keys) ∧ d.det.missing.get? 1 = some [7] ∧
    9 ∉ d.det.missing.keys ∧ (9 = d.det.firstMissing → (9 + 1) % 2 ^ 32 ∉ d.det.ordered) ∧
    threeBytes.head? = some 2#8 ∧ readSource threeBytes = .ok (⟨0, [1, 2, 3]⟩, 10) ∧ d.det.Holds 0 ∧ ¬ d.det.Holds 9 := by
  have hv : ((NDec.init clk0 true).after gf8 dbg clk0 [.packet threeBytes, .packet (wide 7 [5, 6, 7])]).toOption.any (fun d =>
      decide ((∀ q ∈ d.det.repairs, q.2.ids.length ≠ 1) ∧ d.det.repairs.length = 1 ∧ d.det.repairs.length < d.det.missing.length ∧
        (∀ q ∈ d.det.missing, ∀ i ∈ q.2, i ∈ d.det.repairs.keys) ∧ d.det.missing.get? 1 = some [7] ∧ 9 ∉ d.det.missing.keys) &&
      decide ((9 = d.det.firstMissing → (9 + 1) % 2 ^ 32 ∉ d.det.ordered) ∧ 0 ∈ d.det.sources.keys ∧ 9 ∉ d.det.sources.keys)) = true := by
    revert dbg; decide +kernel
  revert hv
  cases (NDec.init clk0 true).after gf8 dbg clk0 [.packet threeBytes, .packet (wide 7 [5, 6, 7])] with
  | error e => intro hv; cases hv
  | ok d =>
    intro hv
    simp only [Except.toOption, Option.any_some, Bool.and_eq_true, decide_eq_true_eq] at hv
    obtain ⟨⟨h1, h2, h3, h4, h5, h6⟩, h7, h8, h9⟩ := hv
    exact ⟨d, rfl, h1, h2, h3, fun x i hx => h4 _ (OMap.mem_of_get? hx) i (by simp), h5, h6, h7, rfl, by decide, h8, h9⟩

/-- A repair that leaves out the next source, and that source. -/
def gapped : List Byte := (writeRepair ⟨7, [0, 2, 3, 4], 0#16, [5, 6, 7]⟩).flatten
def second : List Byte := [2, 0, 0, 0, 1, 0, 2, 8, 9]

example (dbg : Bool) : ∃ d, (NDec.init clk0 true).after gf8 dbg clk0 [.packet threeBytes, .packet gapped] = .ok d ∧
    (∀ q ∈ d.det.repairs, q.2.ids.length ≠ 1) ∧ d.det.repairs.length = 1 ∧ d.det.repairs.length < d.det.missing.length ∧
    (∀ x i, d.det.missing.get? x = some [i] → i ∈ d.det.repairs.keys) ∧ 1 ∉ d.det.missing.keys ∧ 1 = d.det.firstMissing ∧
    (1 + 1) % 2 ^ 32 ∉ d.det.ordered ∧ second.head? = some 2#8 ∧ readSource second = .ok (⟨1, [8, 9]⟩, 9) ∧
    ¬ d.det.Outdated 1 ∧ ¬ d.det.Holds 1 := by
  have hv : ((NDec.init clk0 true).after gf8 dbg clk0 [.packet threeBytes, .packet gapped]).toOption.any (fun d =>
      decide ((∀ q ∈ d.det.repairs, q.2.ids.length ≠ 1) ∧ d.det.repairs.length = 1 ∧ d.det.repairs.length < d.det.missing.length ∧
        (∀ q ∈ d.det.missing, ∀ i ∈ q.2, i ∈ d.det.repairs.keys) ∧ 1 ∉ d.det.missing.keys) &&
      decide (1 = d.det.firstMissing ∧ (1 + 1) % 2 ^ 32 ∉ d.det.ordered ∧ d.det.lastId = some 0 ∧ 1 ∉ d.det.sources.keys)) = true := by
    revert dbg; decide +kernel
  revert hv
  cases (NDec.init clk0 true).after gf8 dbg clk0 [.packet threeBytes, .packet gapped] with
  | error e => intro hv; cases hv
  | ok d =>
    intro hv
    simp only [Except.toOption, Option.any_some, Bool.and_eq_true, decide_eq_true_eq] at hv
    obtain ⟨⟨h1, h2, h3, h4, h5⟩, h6, h7, h8, h9⟩ := hv
    refine ⟨d, rfl, h1, h2, h3, fun x i hx => h4 _ (OMap.mem_of_get? hx) i (by simp), h5, h6, h7, rfl, by decide, ?_, h9⟩
    rintro ⟨l, hl, hlt⟩
    rw [h8] at hl
    cases hl
    omega

/-- A source that the repair waits for, of 2 bytes, and of 20, which are too many. -/
def tooLong : List Byte := [2, 0, 0, 0, 1, 0, 20] ++ List.replicate 20 8

example (dbg io : Bool) : ∃ d, (NDec.init clk0 io).after gf8 dbg clk0 [.packet threeBytes, .packet (wide 7 [5, 6, 7])] = .ok d ∧
    (∀ q ∈ d.det.repairs, q.2.ids.length ≠ 1) ∧ (∀ x i, d.det.missing.get? x = some [i] → i ∈ d.det.repairs.keys) ∧
    readSource second = .ok (⟨1, [8, 9]⟩, 9) ∧ readSource tooLong = .ok (⟨1, List.replicate 20 8⟩, 27) ∧ tooLong.head? = some 2#8 ∧
    (¬ d.det.Outdated 1 ∧ ¬ d.det.Holds 1) ∧ d.det.missing.get? 1 = some [7] ∧
    (∀ i ∈ [7], ∃ r, d.det.repairs.get? i = some r ∧ 1 ∈ r.ids ∧ 2 < r.ids.length ∧ r.symSize ≤ r.buf.length) ∧
    (io = true → (1 = d.det.firstMissing ∧ (1 + 1) % 2 ^ 32 ∉ d.det.ordered)) ∧ d.det.repairs.length < (d.det.missing.erase 1).length ∧
    (∃ r, d.det.repairs.get? 7 = some r ∧ r.Takes 8 dbg 2 ∧ ¬ r.Takes 8 dbg 20) := by
  have hv : ((NDec.init clk0 io).after gf8 dbg clk0 [.packet threeBytes, .packet (wide 7 [5, 6, 7])]).toOption.any (fun d =>
      decide ((∀ q ∈ d.det.repairs, q.2.ids.length ≠ 1) ∧ (∀ q ∈ d.det.missing, ∀ i ∈ q.2, i ∈ d.det.repairs.keys) ∧
        d.det.missing.get? 1 = some [7] ∧ d.det.repairs.length < (d.det.missing.erase 1).length) &&
      decide (d.det.lastId = some 0 ∧ 1 ∉ d.det.sources.keys) && decide (io = true → (1 = d.det.firstMissing ∧ (1 + 1) % 2 ^ 32 ∉ d.det.ordered)) &&
      (d.det.repairs.get? 7).any (fun r => decide (1 ∈ r.ids ∧ 2 < r.ids.length ∧ r.symSize ≤ r.buf.length ∧ r.symSize = 3 ∧ r.buf.length = 19))) =
        true := by
    revert dbg io; decide +kernel
  revert hv
  cases (NDec.init clk0 io).after gf8 dbg clk0 [.packet threeBytes, .packet (wide 7 [5, 6, 7])] with
  | error e => intro hv; cases hv
  | ok d =>
    intro hv
    simp only [Except.toOption, Option.any_some, Bool.and_eq_true, decide_eq_true_eq] at hv
    obtain ⟨⟨⟨⟨h1, h2, h3, h4⟩, h5, h6⟩, h8⟩, h7⟩ := hv
    rw [Option.any_eq_true] at h7
    obtain ⟨r, hr, h7⟩ := h7
    rw [decide_eq_true_eq] at h7
    obtain ⟨g1, g2, g3, g4, g5⟩ := h7
    refine ⟨d, rfl, h1, fun x i hx => h2 _ (OMap.mem_of_get? hx) i (by simp), by decide, by decide, rfl, ⟨?_, h6⟩, h3, ?_, h8, h4,
      ⟨r, hr, ?_, ?_⟩⟩
    · rintro ⟨l, hl, hlt⟩
      rw [h5] at hl
      cases hl
      omega
    · intro i hi
      rw [List.mem_singleton.1 hi]
      exact ⟨r, hr, g1, g2, g3⟩
    · unfold DRepair.Takes
      rw [g4, g5]
      cases dbg <;> decide
    · unfold DRepair.Takes
      rw [g4, g5]
      cases dbg <;> decide

/-- The same with a source that is withheld, and gets out with the next one. -/
def third : List Byte := [2, 0, 0, 0, 2, 0, 2, 6, 7]
def gapped' : List Byte := (writeRepair ⟨7, [0, 3, 4, 5], 0#16, [5, 6, 7]⟩).flatten

example (dbg : Bool) : ∃ d, (NDec.init clk0 true).after gf8 dbg clk0 [.packet threeBytes, .packet gapped', .packet third] = .ok d ∧
    (∀ q ∈ d.det.repairs, q.2.ids.length ≠ 1) ∧ d.det.repairs.length = 1 ∧ d.det.repairs.length < d.det.missing.length ∧
    (∀ x i, d.det.missing.get? x = some [i] → i ∈ d.det.repairs.keys) ∧ 1 ∉ d.det.missing.keys ∧ 1 = d.det.firstMissing ∧
    d.det.ordered = [2] ∧ d.det.Holds 2 ∧ ¬ d.det.Outdated 1 ∧ ¬ d.det.Holds 1 := by
  have hv : ((NDec.init clk0 true).after gf8 dbg clk0 [.packet threeBytes, .packet gapped', .packet third]).toOption.any (fun d =>
      decide ((∀ q ∈ d.det.repairs, q.2.ids.length ≠ 1) ∧ d.det.repairs.length = 1 ∧ d.det.repairs.length < d.det.missing.length ∧
        (∀ q ∈ d.det.missing, ∀ i ∈ q.2, i ∈ d.det.repairs.keys) ∧ 1 ∉ d.det.missing.keys) &&
      decide (1 = d.det.firstMissing ∧ d.det.ordered = [2] ∧ 2 ∈ d.det.sources.keys ∧ d.det.lastId = some 0 ∧ 1 ∉ d.det.sources.keys)) = true := by
    revert dbg; decide +kernel
  revert hv
  cases (NDec.init clk0 true).after gf8 dbg clk0 [.packet threeBytes, .packet gapped', .packet third] with
  | error e => intro hv; cases hv
  | ok d =>
    intro hv
    simp only [Except.toOption, Option.any_some, Bool.and_eq_true, decide_eq_true_eq] at hv
    obtain ⟨⟨h1, h2, h3, h4, h5⟩, h6, h7, h8, h9, h10⟩ := hv
    refine ⟨d, rfl, h1, h2, h3, fun x i hx => h4 _ (OMap.mem_of_get? hx) i (by simp), h5, h6, h7, h8, ?_, h10⟩
    rintro ⟨l, hl, hlt⟩
    rw [h9] at hl
    cases hl
    omega

end Netcode
