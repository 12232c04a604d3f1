import Verif.Proofs.SwapList
import Verif.Proofs.Trail

/-!
# A decoder on a machine of the other byte order

It does what a decoder on a little-endian machine does whose data have the bytes of all words reversed.
-/

set_option linter.unusedSectionVars false

namespace Netcode

open OMap

variable {w : Nat}

/-! ## Maps -/

/-- A function applied to all values. -/
def OMap.mapV {V : Type} (f : V → V) (m : OMap V) : OMap V := m.map (fun p => (p.1, f p.2))

section
variable {V : Type} (f : V → V) (m : OMap V) (k : Nat)

theorem mapV_get? : (m.mapV f).get? k = (m.get? k).map f := by
  unfold OMap.mapV OMap.get?
  induction m with
  | nil => rfl
  | cons p t ih =>
    rw [List.map_cons, List.find?_cons, List.find?_cons]
    by_cases h : (p.1 == k) = true
    · simp only [h, Option.map_some]
    · simp only [h]; exact ih

theorem mapV_has : (m.mapV f).has k = m.has k := by
  unfold OMap.mapV OMap.has
  rw [List.any_map]; rfl

theorem mapV_keys : (m.mapV f).keys = m.keys := by
  unfold OMap.mapV OMap.keys
  rw [List.map_map]; rfl

theorem mapV_length : (m.mapV f).length = m.length := List.length_map ..

theorem mapV_isEmpty : (m.mapV f).isEmpty = m.isEmpty := by
  cases m <;> rfl

theorem mapV_erase : (m.mapV f).erase k = (m.erase k).mapV f := by
  unfold OMap.mapV OMap.erase
  rw [List.filter_map]; rfl

theorem mapV_eraseBelow : (m.mapV f).eraseBelow k = (m.eraseBelow k).mapV f := by
  unfold OMap.mapV OMap.eraseBelow
  rw [List.filter_map]; rfl

theorem mapV_emplace (v : V) : (m.mapV f).emplace k (f v) = (m.emplace k v).mapV f := by
  unfold OMap.mapV
  induction m with
  | nil => rfl
  | cons p t ih =>
    rw [List.map_cons, OMap.emplace, OMap.emplace]
    simp only
    split
    · rfl
    · split
      · rfl
      · rw [ih]; rfl

theorem mapV_modify (v : V) : (m.mapV f).modify k (fun _ => f v) = (m.modify k (fun _ => v)).mapV f := by
  unfold OMap.mapV OMap.modify
  rw [List.map_map, List.map_map]
  apply List.map_congr_left
  intro p _
  simp only [Function.comp]
  split <;> rfl

theorem mapV_getElem? (i : Nat) : (m.mapV f)[i]? = (m[i]?).map (fun p => (p.1, f p.2)) := List.getElem?_map ..

end

/-! ## States -/

/-- The same repair on the other machine. -/
def DRepair.sw (w : Nat) (r : DRepair) : DRepair := { r with buf := swapped w r.buf }
/-- The same source on the other machine. -/
def DSource.sw (w : Nat) (r : DSource) : DSource := { r with sym := swapped w r.sym }
/-- The same callback on the other machine. -/
def Event.sw (w : Nat) (e : Event) : Event := { e with data := swapped w e.data }
/-- The same decoder on the other machine. -/
def Dec.sw (w : Nat) (s : Dec) : Dec :=
  { s with repairs := s.repairs.mapV (DRepair.sw w), sources := s.sources.mapV (DSource.sw w), log := s.log.map (Event.sw w) }
/-- The same decoder on the other machine. -/
def NDec.sw (w : Nat) (d : NDec) : NDec := { d with det := d.det.sw w, data := d.data.map (swapped w) }

/-! ## Repairs -/

section
variable {gf : GF w} {dbg : Bool} (hw : ValidW w)
include hw

theorem createSource_sw {r : DRepair} {x : DSource} (h : createSource gf dbg r = .ok x) :
    createSourceBE gf dbg (r.sw w) = .ok (x.sw w) := by
  unfold createSource at h
  unfold createSourceBE
  rw [mulSizeBE_eq hw]
  simp only [bind_ok_iff] at h ⊢
  obtain ⟨_, h1, h⟩ := h
  refine ⟨(), h1, ?_⟩
  rw [show (r.sw w).ids = r.ids from rfl]
  split at h
  · cases h
  · rename_i e
    simp only [bind_ok_iff] at h
    obtain ⟨sym, h2, h⟩ := h
    cases h
    rw [e]
    exact bind_ok_iff.2 ⟨_, gfMultiply_sw hw h2, rfl⟩

theorem removeData_sw {src : DSource} {r x : DRepair} (h : removeData gf dbg src r = .ok x) :
    removeDataBE gf dbg (src.sw w) (r.sw w) = .ok (x.sw w) := by
  unfold removeData at h
  unfold removeDataBE
  rw [mulSizeBE_eq hw]
  have e : (src.sw w).sym.length = src.sym.length := swapped_length _
  rw [e]
  simp only [bind_ok_iff] at h ⊢
  obtain ⟨_, h1, _, h2, b, h3, h⟩ := h
  cases h
  exact ⟨(), h1, (), h2, _, gfMultiplyAdd_sw hw h3, rfl⟩

theorem removeFromRepair_sw {src : DSource} {r x : DRepair} (h : removeFromRepair gf dbg src r = .ok x) :
    removeFromRepairBE gf dbg (src.sw w) (r.sw w) = .ok (x.sw w) := by
  unfold removeFromRepair at h
  unfold removeFromRepairBE
  simp only [bind_ok_iff] at h ⊢
  obtain ⟨y, h1, _, h2, _, h3, h⟩ := h
  cases h
  exact ⟨_, removeData_sw hw h1, (), h2, (), h3, rfl⟩

theorem removeFromAll_sw {src : DSource} (l : List Nat) {s s' : Dec} (h : removeFromAll gf dbg src l s = .ok s') :
    removeFromAllBE gf dbg (src.sw w) l (s.sw w) = .ok (s'.sw w) := by
  induction l generalizing s with
  | nil => cases h; rfl
  | cons rid t ih =>
    unfold removeFromAll at h
    unfold removeFromAllBE
    rw [show (s.sw w).repairs = s.repairs.mapV (DRepair.sw w) from rfl, mapV_get?]
    split at h
    · cases h
    · rename_i r hr
      simp only [bind_ok_iff] at h
      obtain ⟨y, h1, h⟩ := h
      rw [hr]
      refine bind_ok_iff.2 ⟨_, removeFromRepair_sw hw h1, ?_⟩
      have := ih h
      rw [mapV_modify]
      exact this

end

/-! ## Callbacks -/

section
variable {dbg : Bool} {s s' : Dec}

theorem callback_sw (s : Dec) (src : DSource) : (s.sw w).callback (src.sw w) = (s.callback src).sw w := by
  unfold Dec.callback Dec.sw
  simp only [List.map_append, List.map_cons, List.map_nil, Event.sw, DSource.sw, mapV_keys]

theorem callbackOrdered_sw {id : Nat} (h : s.callbackOrdered id = .ok s') : (s.sw w).callbackOrdered id = .ok (s'.sw w) := by
  unfold Dec.callbackOrdered at *
  rw [show (s.sw w).sources = s.sources.mapV (DSource.sw w) from rfl, mapV_get?]
  split at h
  · cases h
  · rename_i src e
    cases h
    rw [e]
    exact congrArg Except.ok (callback_sw s src)

theorem flushLoop_sw (l : List Nat) (h : flushLoop dbg l s = .ok s') : flushLoop dbg l (s.sw w) = .ok (s'.sw w) := by
  induction l generalizing s with
  | nil => cases h; rfl
  | cons id rest ih =>
    unfold flushLoop at h ⊢
    simp only [bind_ok_iff] at h ⊢
    obtain ⟨_, h0, s1, h1, h⟩ := h
    refine ⟨(), h0, s1.sw w, callbackOrdered_sw h1, ?_⟩
    cases rest with
    | nil => cases h; rfl
    | cons nxt t =>
      simp only at h ⊢
      split at h
      · rename_i hc
        cases h
        rw [if_pos (by exact hc)]; rfl
      · rename_i hc
        rw [if_neg (by exact hc)]
        exact ih h

theorem flush_sw (h : s.flush dbg = .ok s') : (s.sw w).flush dbg = .ok (s'.sw w) := by
  unfold Dec.flush at *
  rw [show (s.sw w).firstMissing = s.firstMissing from rfl, show (s.sw w).ordered = s.ordered from rfl]
  split at h
  · rename_i hc; rw [if_pos hc]; exact flushLoop_sw _ h
  · rename_i hc; rw [if_neg hc]; cases h; rfl

theorem giveNew_sw {src : DSource} (h : s.giveNew dbg src = .ok s') : (s.sw w).giveNew dbg (src.sw w) = .ok (s'.sw w) := by
  unfold Dec.giveNew at *
  rw [show (s.sw w).firstMissing = s.firstMissing from rfl, show (s.sw w).inOrder = s.inOrder from rfl,
    show (src.sw w).id = src.id from rfl, callback_sw]
  split at h
  · rename_i hc; rw [if_pos hc]; cases h; rfl
  · rename_i hc; rw [if_neg hc]
    split at h
    · rename_i hc; rw [if_pos hc]; exact flush_sw h
    · rename_i hc; rw [if_neg hc]; cases h; rfl

theorem addSourceTail_sw {src : DSource} (h : addSourceTail dbg src s = .ok s') :
    addSourceTail dbg (src.sw w) (s.sw w) = .ok (s'.sw w) := by
  unfold addSourceTail at *
  simp only [bind_ok_iff] at h ⊢
  obtain ⟨_, h1, h⟩ := h
  refine ⟨(), by rw [show (s.sw w).sources = s.sources.mapV (DSource.sw w) from rfl, mapV_has]; exact h1, ?_⟩
  rw [show (s.sw w).sources = s.sources.mapV (DSource.sw w) from rfl, mapV_emplace]
  split at h
  · rename_i hc; cases h; exact (if_pos hc).trans rfl
  · rename_i hc; cases h; exact (if_neg hc).trans rfl

theorem giveOutdated_sw (l : List Nat) (h : giveOutdated l s = .ok s') : giveOutdated l (s.sw w) = .ok (s'.sw w) := by
  induction l generalizing s with
  | nil => cases h; rfl
  | cons k t ih =>
    unfold giveOutdated at h ⊢
    simp only [bind_ok_iff] at h ⊢
    obtain ⟨s1, h1, h⟩ := h
    exact ⟨_, callbackOrdered_sw h1, ih h⟩

theorem giveAllOutdated_sw {id : Nat} (h : s.giveAllOutdated dbg id = .ok s') :
    (s.sw w).giveAllOutdated dbg id = .ok (s'.sw w) := by
  unfold Dec.giveAllOutdated at *
  rw [show (s.sw w).inOrder = s.inOrder from rfl, show (s.sw w).ordered = s.ordered from rfl]
  split at h
  · rename_i hc
    rw [if_pos hc]
    simp only [bind_ok_iff] at h ⊢
    obtain ⟨s1, h1, h⟩ := h
    exact ⟨_, giveOutdated_sw _ h1, flush_sw h⟩
  · rename_i hc; rw [if_neg hc]; cases h; rfl

theorem giveDecoded_sw {src : DSource} (h : s.giveDecoded dbg src = .ok s') :
    (s.sw w).giveDecoded dbg (src.sw w) = .ok (s'.sw w) := by
  unfold Dec.giveDecoded at *
  rw [show (s.sw w).firstMissing = s.firstMissing from rfl, show (s.sw w).inOrder = s.inOrder from rfl,
    show (src.sw w).id = src.id from rfl, callback_sw]
  split at h
  · rename_i hc; rw [if_pos hc]; cases h; rfl
  · rename_i hc; rw [if_neg hc]
    split at h
    · rename_i hc; rw [if_pos hc]; exact flush_sw h
    · rename_i hc; rw [if_neg hc]; cases h; rfl

theorem insertDecoded_sw {src : DSource} (h : s.insertDecoded dbg src = .ok s') :
    (s.sw w).insertDecoded dbg (src.sw w) = .ok (s'.sw w) := by
  unfold Dec.insertDecoded at *
  simp only [bind_ok_iff] at h ⊢
  obtain ⟨_, h1, h⟩ := h
  rw [show (s.sw w).sources = s.sources.mapV (DSource.sw w) from rfl, show (src.sw w).id = src.id from rfl, mapV_has, mapV_emplace,
    mapV_get?]
  refine ⟨(), h1, ?_⟩
  split at h
  · cases h
  · rename_i src' e
    rw [e]
    exact giveDecoded_sw (w := w) h

end

/-! ## Decoding -/

section
variable {gf : GF w} {dbg : Bool} {s s' : Dec} (hw : ValidW w)
include hw

theorem addSourceHead_sw {src : DSource} (h : addSourceHead gf dbg src s = .ok s') :
    addSourceHeadBE gf dbg (src.sw w) (s.sw w) = .ok (s'.sw w) := by
  unfold addSourceHead at h
  unfold addSourceHeadBE
  simp only [bind_ok_iff] at h ⊢
  obtain ⟨s1, h1, h⟩ := h
  refine ⟨_, giveNew_sw h1, ?_⟩
  rw [show (s1.sw w).missing = s1.missing from rfl, show (src.sw w).id = src.id from rfl]
  split at h
  · rename_i hm; rw [hm]; cases h; rfl
  · rename_i links hm
    simp only [bind_ok_iff] at h
    obtain ⟨s2, h2, h⟩ := h
    cases h
    rw [hm]
    exact bind_ok_iff.2 ⟨_, removeFromAll_sw hw links h2, rfl⟩

theorem add_scan_sw (gf : GF w) (dbg : Bool) (fuel : Nat) :
    (∀ src s s', addSource gf dbg fuel src s = .ok s' → addSourceBE gf dbg fuel (src.sw w) (s.sw w) = .ok (s'.sw w)) ∧
    (∀ k s s', scanMissing gf dbg fuel k s = .ok s' → scanMissingBE gf dbg fuel k (s.sw w) = .ok (s'.sw w)) := by
  induction fuel with
  | zero =>
    constructor
    · intro src s s' h; unfold addSource at h; cases h
    · intro k s s' h
      cases k with
      | none => unfold scanMissing at h; unfold scanMissingBE; cases h; rfl
      | some k => unfold scanMissing at h; cases h
  | succ fuel ih =>
    constructor
    · intro src s s' h
      unfold addSource at h
      unfold addSourceBE
      simp only [bind_ok_iff] at h ⊢
      obtain ⟨s1, h1, s2, h2, h⟩ := h
      exact ⟨_, addSourceHead_sw hw h1, _, ih.2 _ _ _ h2, addSourceTail_sw h⟩
    · intro k s s' h
      cases k with
      | none => unfold scanMissing at h; unfold scanMissingBE; cases h; rfl
      | some k =>
        rw [scanMissing] at h
        rw [scanMissingBE]
        rw [show (s.sw w).missing = s.missing from rfl, show (s.sw w).repairs = s.repairs.mapV (DRepair.sw w) from rfl,
          show (s.sw w).lastId = s.lastId from rfl, show (s.sw w).sources = s.sources.mapV (DSource.sw w) from rfl]
        split at h
        · cases h
        · rename_i rid hm
          split at h
          · cases h
          · rename_i r hr
            rw [hm]
            simp only
            rw [mapV_get?, hr]
            simp only [Option.map_some]
            rw [show (r.sw w).ids = r.ids from rfl, mapV_has]
            split at h
            · rename_i hlen
              rw [if_pos hlen]
              simp only [bind_ok_iff] at h ⊢
              obtain ⟨_, a1, _, a2, src, a3, s1, h1, h⟩ := h
              have g1 := ih.1 _ _ _ h1
              rw [show (Dec.sw w { s with nbDecoded := s.nbDecoded + 1, repairs := s.repairs.erase rid, missing := s.missing.erase k } : Dec)
                = { s.sw w with nbDecoded := s.nbDecoded + 1, repairs := (s.repairs.mapV (DRepair.sw w)).erase rid, missing := s.missing.erase k } by
                  unfold Dec.sw; simp only; rw [mapV_erase]] at g1
              exact ⟨(), a1, (), a2, _, createSource_sw hw a3, _, g1, ih.2 _ _ _ h⟩
            · rename_i hlen
              rw [if_neg hlen]
              exact ih.2 _ _ _ h
        · rename_i l hn hm
          rw [hm]
          rcases l with _ | ⟨a, _ | ⟨b, u⟩⟩
          · exact ih.2 _ _ _ h
          · exact absurd rfl (hn a)
          · exact ih.2 _ _ _ h

omit hw in
theorem alive_sw (R : OMap DRepair) (m : OMap (List Nat)) (ids : List Nat) :
    linksAlive (R.mapV (DRepair.sw w)) m ids = linksAlive R m ids := by
  unfold linksAlive
  rw [show (R.mapV (DRepair.sw w)).has = R.has from funext (mapV_has _ R)]

omit hw in
theorem dropRepairs_sw (id : Nat) (l : OMap DRepair) {s s' : Dec} (h : dropRepairs dbg id l s = .ok s') :
    dropRepairs dbg id (l.mapV (DRepair.sw w)) (s.sw w) = .ok (s'.sw w) := by
  induction l generalizing s with
  | nil => cases h; rfl
  | cons p t ih =>
    obtain ⟨rid, r⟩ := p
    rw [show OMap.mapV (DRepair.sw w) ((rid, r) :: t) = (rid, r.sw w) :: OMap.mapV (DRepair.sw w) t from rfl]
    unfold dropRepairs at h ⊢
    rw [show (r.sw w).ids = r.ids from rfl]
    simp only [bind_ok_iff] at h ⊢
    obtain ⟨_, a1, h⟩ := h
    refine ⟨(), a1, ?_⟩
    split at h
    · cases h
    · rename_i x xs hx
      split at h
      · rename_i hc
        simp only [bind_ok_iff] at h
        obtain ⟨_, a0, mm, a2, h⟩ := h
        have g := ih h
        rw [hx] at a0 a2 ⊢
        rw [if_pos hc]
        refine bind_ok_iff.2 ⟨(), ?_, bind_ok_iff.2 ⟨mm, a2, ?_⟩⟩
        · rw [← a0]
          exact congrArg (fun b => ensure b .dangling) (alive_sw _ _ _)
        · rw [← g]
          unfold Dec.sw
          simp only
          rw [mapV_erase]
      · rename_i hc
        rw [hx, if_neg hc]
        exact ih h

omit hw in
theorem dropOutdated_sw {id : Nat} (h : s.dropOutdated dbg id = .ok s') : (s.sw w).dropOutdated dbg id = .ok (s'.sw w) := by
  unfold Dec.dropOutdated at h ⊢
  simp only [bind_ok_iff] at h ⊢
  obtain ⟨s1, h1, s2, h2, h⟩ := h
  cases h
  refine ⟨_, dropRepairs_sw (w := w) id s.repairs h1, _, giveAllOutdated_sw h2, ?_⟩
  unfold Dec.sw
  simp only
  rw [mapV_eraseBelow]
  rfl

omit hw in
theorem coeffMatrix_sw (R : OMap DRepair) (m : OMap (List Nat)) :
    coeffMatrix w (R.mapV (DRepair.sw w)) m = coeffMatrix w R m := by
  funext q r
  unfold coeffMatrix
  rw [mapV_getElem?]
  cases R[q]? with
  | none => rfl
  | some p =>
    cases m[r]? with
    | none => rfl
    | some y => rfl

theorem decodeSym_sw {inv : Mat w} {col srcSz : Nat} (l : List (DRepair × Nat)) {b : Bool} {sym x : List Byte}
    (hs : b = true → sym = List.replicate srcSz 0#8) (h : decodeSym gf inv col srcSz l b sym = .ok x) :
    decodeSymBE gf inv col srcSz (l.map (fun p => (p.1.sw w, p.2))) b (swapped w sym) = .ok (swapped w x) := by
  induction l generalizing b sym with
  | nil => cases h; rfl
  | cons p t ih =>
    obtain ⟨r, row⟩ := p
    rw [List.map_cons]
    unfold decodeSym at h
    unfold decodeSymBE
    simp only at h ⊢
    split at h
    · rename_i hc; rw [if_pos hc]; exact ih hs h
    · rename_i hc; rw [if_neg hc]
      rw [show (r.sw w).symSize = r.symSize from rfl, show (r.sw w).buf = swapped w r.buf from rfl]
      split at h
      · rename_i hb
        rw [if_pos hb]
        simp only [bind_ok_iff] at h ⊢
        obtain ⟨p, h1, h⟩ := h
        refine ⟨_, gfMultiply_sw hw h1, ?_⟩
        obtain ⟨i1, i2, rfl⟩ := gfMultiply_inv h1
        have hd := word_dvd hw i2
        have e : (mulRegion gf (inv col row) (r.buf.take (min srcSz r.symSize))).length = min srcSz r.symSize := by
          rw [mulRegion_length, List.length_take]; omega
        have := ih (b := false) (by simp) h
        rw [swapped_append _ (by rw [e]; exact hd), ← swapped_drop _ hd (by rw [hs hb, List.length_replicate]; omega)] at this
        exact this
      · rename_i hb
        rw [if_neg hb]
        simp only [bind_ok_iff] at h ⊢
        obtain ⟨p, h1, h⟩ := h
        exact ⟨_, gfMultiplyAdd_sw hw h1, ih (by simp) h⟩

omit hw in
theorem zipIdx_sw (l : List DRepair) (n : Nat) :
    (l.map (DRepair.sw w)).zipIdx n = (l.zipIdx n).map (fun p => (p.1.sw w, p.2)) := by
  induction l generalizing n with
  | nil => rfl
  | cons a t ih => rw [List.map_cons, List.zipIdx_cons, List.zipIdx_cons, List.map_cons, ih]

theorem decodeSize_sw (inv : Mat w) (col : Nat) (l : List DRepair) :
    decodeSizeBE gf inv col (l.map (DRepair.sw w)) = decodeSize gf inv col l := by
  unfold decodeSizeBE decodeSize
  rw [zipIdx_sw, List.foldl_map, mulSizeBE_eq hw]
  rfl

theorem decodeOne_sw {inv : Mat w} {col : Nat} {l : List DRepair} {x : List Byte} (h : decodeOne gf dbg inv l col = .ok x) :
    decodeOneBE gf dbg inv (l.map (DRepair.sw w)) col = .ok (swapped w x) := by
  unfold decodeOne at h
  unfold decodeOneBE
  simp only [bind_ok_iff, decodeSize_sw hw, List.length_map] at h ⊢
  obtain ⟨_, h1, _, h2, h⟩ := h
  refine ⟨(), h1, (), h2, ?_⟩
  rw [zipIdx_sw]
  have := decodeSym_sw hw _ (fun _ => rfl) h
  rwa [swapped_zeros] at this

theorem decodeLoop_sw {inv : Mat w} {l : List DRepair} (xs : List Nat) {col : Nat} {s s' : Dec}
    (h : decodeLoop gf dbg inv l col xs s = .ok s') :
    decodeLoopBE gf dbg inv (l.map (DRepair.sw w)) col xs (s.sw w) = .ok (s'.sw w) := by
  induction xs generalizing col s with
  | nil => cases h; rfl
  | cons x t ih =>
    unfold decodeLoop at h
    unfold decodeLoopBE
    simp only [bind_ok_iff] at h ⊢
    obtain ⟨y, h1, s1, h2, h⟩ := h
    exact ⟨_, decodeOne_sw hw h1, _, insertDecoded_sw h2, ih h⟩

theorem fullDecode_sw (h : s.fullDecode gf dbg = .ok s') : (s.sw w).fullDecodeBE gf dbg = .ok (s'.sw w) := by
  unfold Dec.fullDecode at h
  unfold Dec.fullDecodeBE
  rw [show (s.sw w).missing = s.missing from rfl, show (s.sw w).repairs = s.repairs.mapV (DRepair.sw w) from rfl, mapV_length,
    mapV_isEmpty, coeffMatrix_sw]
  split at h
  · rename_i hc; rw [if_pos hc]; cases h; rfl
  rename_i hc; rw [if_neg hc]
  split at h
  · rename_i hc; rw [if_pos hc]; cases h; rfl
  rename_i hc; rw [if_neg hc]
  simp only [bind_ok_iff] at h ⊢
  obtain ⟨_, a1, _, a2, _, a3, h⟩ := h
  refine ⟨(), a1, (), a2, (), a3, ?_⟩
  split at h
  · rename_i c hinv
    split at h
    · cases h
    · rename_i rid r hr
      simp only [bind_ok_iff] at h
      obtain ⟨_, a4, h⟩ := h
      cases h
      rw [hinv]
      simp only
      rw [mapV_getElem?, hr]
      simp only [Option.map_some]
      rw [alive_sw]
      refine bind_ok_iff.2 ⟨(), a4, ?_⟩
      rw [mapV_erase]
      rfl
  · rename_i inv hinv
    simp only [bind_ok_iff] at h
    obtain ⟨s1, h1, h⟩ := h
    cases h
    rw [hinv]
    refine bind_ok_iff.2 ⟨s1.sw w, ?_, rfl⟩
    have := decodeLoop_sw hw _ h1
    rw [List.map_map] at this
    unfold OMap.mapV
    rw [List.map_map]
    exact this

omit hw in
theorem fuel_sw (s : Dec) : (s.sw w).fuel = s.fuel := by
  unfold Dec.fuel
  rw [show (s.sw w).repairs = s.repairs.mapV (DRepair.sw w) from rfl, mapV_length]
  rfl

theorem onSource_sw {src : DSource} (h : s.onSource gf dbg src = .ok s') : (s.sw w).onSourceBE gf dbg (src.sw w) = .ok (s'.sw w) := by
  unfold Dec.onSource at h
  unfold Dec.onSourceBE
  rw [show (s.sw w).lastId = s.lastId from rfl, show (s.sw w).sources = s.sources.mapV (DSource.sw w) from rfl, mapV_has,
    show (src.sw w).id = src.id from rfl, fuel_sw]
  split at h
  · rename_i hc; rw [if_pos hc]; cases h; rfl
  rename_i hc; rw [if_neg hc]
  split at h
  · rename_i hc; rw [if_pos hc]; cases h; rfl
  rename_i hc; rw [if_neg hc]
  simp only [bind_ok_iff] at h ⊢
  obtain ⟨s1, h1, h⟩ := h
  exact ⟨_, (add_scan_sw hw gf dbg _).1 _ _ _ h1, fullDecode_sw hw h⟩

theorem link_sw {sources : OMap DSource} (xs : List Nat) {r : DRepair} {m : OMap (List Nat)} {x : DRepair × OMap (List Nat)}
    (h : xs.foldlM (linkStep gf dbg sources) (r, m) = .ok x) :
    xs.foldlM (linkStepBE gf dbg (sources.mapV (DSource.sw w))) (r.sw w, m) = .ok (x.1.sw w, x.2) := by
  induction xs generalizing r m with
  | nil => cases h; rfl
  | cons k t ih =>
    rw [List.foldlM_cons, bind_ok_iff] at h ⊢
    obtain ⟨⟨r1, m1⟩, h1, h⟩ := h
    refine ⟨(r1.sw w, m1), ?_, ih h⟩
    unfold linkStep at h1
    unfold linkStepBE
    simp only at h1 ⊢
    rw [mapV_get?]
    split at h1
    · rename_i src e
      simp only [bind_ok_iff] at h1
      obtain ⟨r2, h2, h1⟩ := h1
      cases h1
      rw [e]
      exact bind_ok_iff.2 ⟨_, removeData_sw hw h2, rfl⟩
    · rename_i e
      rw [e]
      simp only [Option.map_none]
      split at h1
      · rename_i hc; rw [if_pos hc]; cases h1; rfl
      · rename_i hc; rw [if_neg hc]; cases h1; rfl

theorem onRepair_sw {r : DRepair} (h : s.onRepair gf dbg r = .ok s') : (s.sw w).onRepairBE gf dbg (r.sw w) = .ok (s'.sw w) := by
  unfold Dec.onRepair at h
  unfold Dec.onRepairBE
  rw [show (s.sw w).lastId = s.lastId from rfl, show (s.sw w).repairs = s.repairs.mapV (DRepair.sw w) from rfl, mapV_has,
    show (r.sw w).ids = r.ids from rfl, show (r.sw w).id = r.id from rfl]
  simp only [bind_ok_iff] at h ⊢
  obtain ⟨_, a1, h⟩ := h
  refine ⟨(), a1, ?_⟩
  split at h
  · rename_i lastIn firstIn e1 e2
    rw [e1, e2]
    simp only
    split at h
    · rename_i hc; cases h; rw [if_pos hc]; rfl
    rename_i hc
    rw [if_neg hc]
    split at h
    · rename_i hc2; cases h; rw [if_pos hc2]; rfl
    rename_i hc2
    rw [if_neg hc2]
    simp only [bind_ok_iff] at h
    obtain ⟨s1, h1, h⟩ := h
    refine bind_ok_iff.2 ⟨_, dropOutdated_sw h1, ?_⟩
    have eh : (s1.sw w).sources.has = s1.sources.has := funext (mapV_has _ _)
    rw [eh]
    split at h
    · rename_i hc3; cases h
      rw [if_pos hc3]; rfl
    rename_i hc3
    rw [if_neg hc3]
    simp only [bind_ok_iff] at h
    obtain ⟨_, a0, ⟨y, m⟩, h2, _, a2, h⟩ := h
    refine bind_ok_iff.2 ⟨(), ?_, bind_ok_iff.2 ⟨_, link_sw hw _ h2, ?_⟩⟩
    · rw [← a0]
      exact congrArg (fun b => ensure b .dangling) (alive_sw _ _ _)
    simp only
    refine bind_ok_iff.2 ⟨(), a2, ?_⟩
    rw [show (y.sw w).ids = y.ids from rfl, show (y.sw w).id = y.id from rfl, show (s1.sw w).repairs = s1.repairs.mapV (DRepair.sw w) from rfl,
      mapV_emplace, mapV_erase]
    split at h
    · rename_i hc4
      rw [if_pos hc4]
      simp only [bind_ok_iff] at h
      obtain ⟨src, h3, h⟩ := h
      refine bind_ok_iff.2 ⟨_, createSource_sw hw h3, ?_⟩
      have := (add_scan_sw hw gf dbg _).1 _ _ _ h
      rw [← fuel_sw (w := w)] at this
      exact this
    · rename_i hc4
      rw [if_neg hc4]
      exact fullDecode_sw hw h
  · cases h

end

/-! ## ntc::decoder -/

theorem maybeAckWith_sw (clk : Clock) (d : NDec) (held : List Nat) : (d.sw w).maybeAckWith clk held = (d.maybeAckWith clk held).sw w := by
  unfold NDec.maybeAckWith
  rw [show (d.sw w).ackPackets = d.ackPackets from rfl, show (d.sw w).ackNb = d.ackNb from rfl,
    show (d.sw w).ackPeriod = d.ackPeriod from rfl]
  split
  · rfl
  · split
    · simp only
      split
      · rename_i hc; rw [if_pos (by exact hc)]; rfl
      · rename_i hc; rw [if_neg (by exact hc)]; rfl
    · rfl

theorem handleSource_sw (clk : Clock) (d : NDec) (ev : Event) : (d.sw w).handleSource clk (ev.sw w) = (d.handleSource clk ev).sw w := by
  unfold NDec.handleSource
  rw [← maybeAckWith_sw]
  unfold NDec.sw
  simp only [List.map_append, List.map_cons, List.map_nil]
  rfl

theorem foldHandle_sw (clk : Clock) (l : List Event) (d : NDec) :
    (l.map (Event.sw w)).foldl (NDec.handleSource clk) (d.sw w) = (l.foldl (NDec.handleSource clk) d).sw w := by
  induction l generalizing d with
  | nil => rfl
  | cons ev t ih => rw [List.map_cons, List.foldl_cons, List.foldl_cons, handleSource_sw, ih]

theorem afterDet_sw (clk : Clock) (d : NDec) (det' : Dec) : (d.sw w).afterDet clk (det'.sw w) = (d.afterDet clk det').sw w := by
  unfold NDec.afterDet
  rw [← foldHandle_sw, List.map_drop]
  have : (d.sw w).det.log.length = d.det.log.length := List.length_map ..
  rw [this]
  rfl

end Netcode
