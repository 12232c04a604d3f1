import Verif.Spec.ByteOrder
import Verif.Proofs.SwapDec
import Verif.Proofs.Trail
import Verif.Proofs.SysStep

/-!
# Both peers on machines of the other byte order
-/

set_option linter.unusedSectionVars false

namespace Netcode

open OMap

variable {w : Nat}

/-! ## The encoder -/

/-- The same source on the other machine. -/
def ESource.sw (w : Nat) (s : ESource) : ESource := { s with sym := swapped w s.sym }
/-- The same repair on the other machine. -/
def ERepair.sw (w : Nat) (r : ERepair) : ERepair := { r with sym := swapped w r.sym }
/-- The same encoder on the other machine. -/
def Enc.sw (w : Nat) (e : Enc) : Enc := { e with sources := e.sources.map (ESource.sw w), out := e.out.map (EPkt.swapped w) }
/-- The same system on other machines. -/
def Sys.sw (w : Nat) (s : Sys) : Sys := { s with enc := s.enc.sw w, dec := s.dec.sw w, committed := s.committed.map (swapped w) }
/-- The same call on other machines. -/
def Act.sw (w : Nat) : Act → Act
  | .commit d => .commit (swapped w d)
  | a => a

theorem Act.sw_sw (a : Act) : (a.sw w).sw w = a := by
  cases a <;> simp only [Act.sw, swapped_swapped]

section
variable {gf : GF w} {dbg : Bool} (hw : ValidW w)
include hw

theorem encodeStep_sw {r r' : ERepair} {s : ESource} (hr : wordBytes w ∣ r.sym.length) (h : encodeStep gf r s = .ok r') :
    encodeStepBE gf (r.sw w) (s.sw w) = .ok (r'.sw w) ∧ wordBytes w ∣ r'.sym.length := by
  unfold encodeStep at h
  unfold encodeStepBE
  have e1 : (s.sw w).size = s.size := by unfold ESource.size ESource.sw; rw [swapped_length]
  have e2 : (r.sw w).sym.length = r.sym.length := swapped_length _
  rw [e1, e2, mulSizeBE_eq hw]
  simp only [bind_ok_iff] at h ⊢
  obtain ⟨sym, h1, h⟩ := h
  cases h
  have h2 := gfMultiplyAdd_sw hw h1
  obtain ⟨_, _, i3, i4⟩ := gfMultiplyAdd_inv h1
  have hd := word_dvd hw i3
  constructor
  · refine ⟨swapped w sym, ?_, rfl⟩
    rw [← h2]
    congr 1
    split
    · rw [swapped_append _ hr, swapped_zeros]; rfl
    · rfl
  · show _ ∣ sym.length
    rw [i4, xorPrefix_length]
    split
    · rw [List.length_append, List.length_replicate, show r.sym.length + (s.size - r.sym.length) = s.size by omega]
      exact hd
    · exact hr

theorem encodeRepair_sw {id : Nat} {l : List ESource} {r : ERepair} (h : encodeRepair gf dbg id l = .ok r) :
    encodeRepairBE gf dbg id (l.map (ESource.sw w)) = .ok (r.sw w) := by
  cases l with
  | nil => unfold encodeRepair at h; cases dbg <;> cases h
  | cons s t =>
    unfold encodeRepair at h
    rw [List.map_cons]
    unfold encodeRepairBE
    have e1 : (s.sw w).size = s.size := by unfold ESource.size ESource.sw; rw [swapped_length]
    simp only [bind_ok_iff] at h ⊢
    rw [e1, mulSizeBE_eq hw]
    obtain ⟨sym, h1, h⟩ := h
    refine ⟨_, gfMultiply_sw hw h1, ?_⟩
    obtain ⟨i1, i3, i4⟩ := gfMultiply_inv h1
    have hd : wordBytes w ∣ sym.length := by
      rw [i4, mulRegion_length, List.length_take, Nat.min_eq_left i1]
      exact word_dvd hw i3
    have key : ∀ (t : List ESource) (a : ERepair), wordBytes w ∣ a.sym.length → t.foldlM (encodeStep gf) a = .ok r →
        (t.map (ESource.sw w)).foldlM (encodeStepBE gf) (a.sw w) = .ok (r.sw w) := by
      intro t
      induction t with
      | nil => intro a _ h; cases h; rfl
      | cons x t ih =>
        intro a ha h
        rw [List.foldlM_cons, bind_ok_iff] at h
        obtain ⟨b, h1, h⟩ := h
        obtain ⟨g1, g2⟩ := encodeStep_sw hw ha h1
        rw [List.map_cons, List.foldlM_cons, bind_ok_iff]
        exact ⟨_, g1, ih b g2 h⟩
    exact key t _ hd h

theorem generateRepair_sw {e e' : Enc} (h : e.generateRepair gf dbg = .ok e') : (e.sw w).generateRepairBE gf dbg = .ok (e'.sw w) := by
  unfold Enc.generateRepair at h
  unfold Enc.generateRepairBE
  simp only [bind_ok_iff] at h ⊢
  obtain ⟨r, h1, _, h2, h⟩ := h
  cases h
  refine ⟨_, encodeRepair_sw hw h1, (), ?_, ?_⟩
  · rw [← h2]
    show cassert dbg (decide (0 < (swapped w r.sym).length)) = _
    rw [swapped_length]
  · unfold Enc.sw
    simp only [List.map_append, List.map_cons, List.map_nil]
    rfl

theorem commit_sw {e e' : Enc} {d : List Byte} (h : e.commit gf dbg d = .ok e') : (e.sw w).commitBE gf dbg (swapped w d) = .ok (e'.sw w) := by
  unfold Enc.commit at h
  unfold Enc.commitBE
  rw [swapped_length]
  simp only [bind_ok_iff] at h ⊢
  obtain ⟨_, h1, _, h2, _, h3, _, h4, e1, h5, e2, h6, h⟩ := h
  cases h
  have el : (e.sw w).sources.length = e.sources.length := List.length_map ..
  have ee : (e.sw w).sources.isEmpty = e.sources.isEmpty := by unfold Enc.sw; simp only; cases e.sources <;> rfl
  refine ⟨(), h1, (), h2, (), h3, (), ?_, e1.sw w, ?_, e2.sw w, ?_, rfl⟩
  · rw [el, ee]; exact h4
  · rw [el]
    have ew : (if e.sources.length = (e.sw w).windowSize then (e.sw w).sources.tail else (e.sw w).sources)
        ++ [({ id := (e.sw w).curSrc, sym := swapped w d } : ESource)] =
        ((if e.sources.length = e.windowSize then e.sources.tail else e.sources) ++ [({ id := e.curSrc, sym := d } : ESource)]).map (ESource.sw w) := by
      rw [List.map_append]
      show (if e.sources.length = e.windowSize then (e.sources.map (ESource.sw w)).tail else e.sources.map (ESource.sw w)) ++ _ = _
      congr 1
      split
      · rw [List.map_tail]
      · rfl
    rw [ew]
    generalize ((if e.sources.length = e.windowSize then e.sources.tail else e.sources) ++ [({ id := e.curSrc, sym := d } : ESource)]) = win at *
    unfold Enc.emitNew at h5
    unfold Enc.emitNewBE
    simp only at h5 ⊢
    rw [show (e.sw w).systematic = e.systematic from rfl]
    split at h5
    · rename_i hc
      cases h5
      rw [if_pos hc]
      unfold Enc.sw
      simp only [List.map_append, List.map_cons, List.map_nil]
      rfl
    · rename_i hc
      rw [if_neg hc]
      exact generateRepair_sw hw h5
  · unfold Enc.autoRepair at h6
    unfold Enc.autoRepairBE
    simp only [bind_ok_iff] at h6 ⊢
    obtain ⟨_, a1, h6⟩ := h6
    refine ⟨(), a1, ?_⟩
    rw [show (e1.sw w).curSrc = e1.curSrc from rfl, show (e1.sw w).rate = e1.rate from rfl]
    split at h6
    · rename_i hc; rw [if_pos hc]; exact generateRepair_sw hw h6
    · rename_i hc; rw [if_neg hc]; cases h6; rfl

omit hw in
theorem eraseIds_sw (l : List ESource) (ids : List Nat) : eraseIds (l.map (ESource.sw w)) ids = (eraseIds l ids).map (ESource.sw w) := by
  fun_induction eraseIds l ids with
  | case1 => rw [List.map_nil, eraseIds]
  | case2 => rw [List.map_cons, eraseIds]
  | case3 s t u ih => rw [List.map_cons, eraseIds, if_pos (by rfl), ih]
  | case4 s t i u h1 h2 ih => rw [List.map_cons, eraseIds, if_neg (by exact h1), if_pos (by exact h2)]; exact ih
  | case5 s t i u h1 h2 ih => rw [List.map_cons, eraseIds, if_neg (by exact h1), if_neg (by exact h2), ih, List.map_cons]

omit hw in
theorem encNotify_sw {F : F64} {e e' : Enc} {p : List Byte} {o : Except CppErr Nat} (h : e.notify F dbg p = .ok (e', o)) :
    (e.sw w).notify F dbg p = .ok (e'.sw w, o) := by
  unfold Enc.notify at h ⊢
  simp only [bind_ok_iff] at h ⊢
  obtain ⟨_, h1, h⟩ := h
  refine ⟨(), h1, ?_⟩
  cases hp : getPacketType p with
  | error x => rw [hp] at h; cases x <;> cases h; rfl
  | ok t =>
    rw [hp] at h
    cases t with
    | ack =>
      simp only at h ⊢
      cases hq : readAck p with
      | error x => rw [hq] at h; cases x <;> cases h; rfl
      | ok q =>
        rw [hq] at h
        cases h
        unfold Enc.sw
        simp only [eraseIds_sw]
        rfl
    | source => cases h; rfl
    | repair => cases h; rfl

end

/-! ## Which calls are allowed -/

theorem keyIds_sw (R : OMap DRepair) : keyIds (R.mapV (DRepair.sw w)) = keyIds R := by
  unfold keyIds OMap.mapV
  rw [List.map_map]
  rfl

theorem out_sw (u : Sys) (i : Nat) : (u.sw w).enc.out[i]? = (u.enc.out[i]?).map (EPkt.swapped w) := List.getElem?_map ..

theorem isRepair_sw (u : Sys) (i : Nat) : (u.sw w).isRepair i ↔ u.isRepair i := by
  unfold Sys.isRepair
  rw [out_sw]
  rcases u.enc.out[i]? with _ | (_ | r)
  · simp
  · simp [EPkt.swapped]
  · simp [EPkt.swapped]

theorem dataOk_sw (d : List Byte) : DataOk w (swapped w d) ↔ DataOk w d := by
  unfold DataOk; rw [swapped_length]

theorem harmless_sw (d : Dec) (id : Nat) (ids : List Nat) : (d.sw w).Harmless id ids ↔ d.Harmless id ids := by
  unfold Dec.Harmless
  have h1 : (d.sw w).repairs.has id = d.repairs.has id := mapV_has ..
  have h2 : (d.sw w).repairs = [] ↔ d.repairs = [] := List.map_eq_nil_iff
  have h3 : ∀ x, (d.sw w).sources.has x = d.sources.has x := fun x => mapV_has ..
  simp only [h1, h2, h3]
  exact Iff.rfl

theorem allowed_sw (c : Cfg w) (u : Sys) (a : Act) : Allowed c (u.sw w) a ↔ Allowed c u (a.sw w) := by
  cases a with
  | commit d =>
    show DataOk w d ∧ (u.committed.map (swapped w)).length + 1 < 2 ^ 32 ∧ _ ↔ DataOk w (swapped w d) ∧ _
    rw [List.length_map, dataOk_sw]
    exact Iff.rfl
  | repair =>
    show (u.enc.sources.map (ESource.sw w)).length ≠ 0 ∧ _ ↔ _
    rw [List.length_map]
    exact Iff.rfl
  | deliver i =>
    simp only [Act.sw, Allowed, out_sw]
    rcases hi : u.enc.out[i]? with _ | (sr | r)
    · exact Iff.rfl
    · show Sys.InTime _ _ _ ↔ Sys.InTime _ _ _
      unfold Sys.InTime
      simp only [isRepair_sw, out_sw, hi]
      refine or_congr Iff.rfl (or_congr Iff.rfl (and_congr Iff.rfl (or_congr Iff.rfl ?_)))
      have hn : ∀ x, (u.sw w).dec.det.NoClash c.gf x ↔ u.dec.det.NoClash c.gf x := fun x => noClash_congr (keyIds_sw _) rfl
      simp only [hn]
      constructor
      · intro h sr' e
        cases e
        exact h ⟨sr.id, swapped w sr.sym⟩ rfl
      · intro h sr' e
        cases e
        exact h sr rfl
    · show Sys.MayArrive _ _ _ ∧ _ ∧ _ ↔ Sys.MayArrive _ _ _ ∧ _ ∧ _
      refine and_congr ?_ (and_congr Iff.rfl ?_)
      · unfold Sys.MayArrive
        simp only [isRepair_sw]
        exact or_congr Iff.rfl (harmless_sw _ _ _)
      · refine forall_congr' fun x => forall_congr' fun _ => ?_
        have : ((u.sw w).committed.getD x []).length = (u.committed.getD x []).length := by
          show ((u.committed.map (swapped w)).getD x []).length = _
          rw [List.getD_eq_getElem?_getD, List.getD_eq_getElem?_getD, List.getElem?_map]
          cases u.committed[x]? with
          | none => rfl
          | some d => exact swapped_length d
        rw [this]
  | _ => exact Iff.rfl

/-! ## Runs in which repairs come without what follows their symbols -/

/-- A repair handed to the decoder as its symbol alone. -/
def Sys.bareNotify (c : Cfg w) (s : Sys) (r : ERepair) : Out (NDec × Except CppErr Nat) :=
  (s.dec.det.onRepair c.gf c.dbg ⟨r.id, r.ids, r.encSize, r.sym ++ [], r.sym.length⟩).map
    (fun det' => (s.dec.gotRepair.afterDet c.clk det', .ok 0))

/-- A step in which repairs are handed over as their symbols alone. -/
def Sys.stepBare (c : Cfg w) (s : Sys) (a : Act) : Out Sys :=
  match a with
  | .deliver i =>
    match s.enc.out[i]? with
    | some (EPkt.repair r) => do
      let (d, x) ← s.bareNotify c r
      return { s with dec := d, hist := s.hist ++ [i], errs := s.errs + errCount x }
    | _ => s.step c (.deliver i)
  | a => s.step c a

/-- The invariant, for the data that were committed. -/
def SwapInv (c : Cfg w) (io : Bool) (s : Sys) : Prop :=
  ∀ data, Agree data s.committed → ∃ ems A ρ L W K, SysInv c io data ems A ρ L W K s

variable {c : Cfg w} {io : Bool} [Fact (0 < w)]

theorem agree_self (l : List (List Byte)) : Agree (fun x => l.getD x []) l := by
  intro x d h
  simp only [List.getD_eq_getElem?_getD, h, Option.getD_some]

theorem stepBare_committed {s s' : Sys} {a : Act} (h : s.stepBare c a = .ok s') : s'.committed = s.committed ++ a.commits := by
  unfold Sys.stepBare at h
  split at h
  · split at h
    · obtain ⟨_, _, h⟩ := bind_ok_iff.1 h; cases h; simp [Act.commits]
    · exact step_committed h
  · exact step_committed h

theorem SysInv.stepBare {data : Nat → List Byte} {ems : List Em} {A : Set Nat} {ρ L : Nat} {W K : Set Nat} {s : Sys}
    (hc : c.Ok) (h : SysInv c io data ems A ρ L W K s) (hag : Agree data s.committed) (a : Act)
    (ha : Allowed c s a) (hd : ∀ d, a = .commit d → data s.committed.length = d) :
    ∃ s' ems' A' ρ' L' W' K', s.stepBare c a = .ok s' ∧ SysInv c io data ems' A' ρ' L' W' K' s' := by
  unfold Sys.stepBare
  split
  · rename_i i
    split
    · rename_i r hi
      have ht := ha
      simp only [Allowed, hi] at ht
      obtain ⟨s', ρ', L', W', K', h1, h2, _⟩ := h.mayArriveAny hc hag.getD hi ht.1 ht.2.1 ht.2.2 (s.bareNotify c r) [] 0
        (fun _ _ det' e => by unfold Sys.bareNotify; rw [e]; rfl)
      exact ⟨s', ems, A, ρ', L', W', K', h1, h2⟩
    · obtain ⟨s', new, A', ρ', L', W', K', h1, h2, _⟩ := h.step hc hag _ ha hd
      exact ⟨s', _, A', ρ', L', W', K', h1, h2⟩
  · obtain ⟨s', new, A', ρ', L', W', K', h1, h2, _⟩ := h.step hc hag _ ha hd
    exact ⟨s', _, A', ρ', L', W', K', h1, h2⟩

theorem SwapInv.step {s : Sys} (hc : c.Ok) (h : SwapInv c io s) {a : Act} (ha : Allowed c s a) :
    ∃ s', s.stepBare c a = .ok s' ∧ SwapInv c io s' := by
  have key : ∀ data, Agree data (s.committed ++ a.commits) →
      ∃ s' ems' A' ρ' L' W' K', s.stepBare c a = .ok s' ∧ SysInv c io data ems' A' ρ' L' W' K' s' := by
    intro data hag
    obtain ⟨ems, A, ρ, L, W, K, hI⟩ := h data hag.prefix
    refine hI.stepBare hc hag.prefix a ha ?_
    rintro d rfl
    exact hag _ d (by simp [Act.commits])
  obtain ⟨s', _, _, _, _, _, _, h1, _⟩ := key _ (agree_self _)
  refine ⟨s', h1, fun data hag => ?_⟩
  rw [stepBare_committed h1] at hag
  obtain ⟨s2, _, _, _, _, _, _, h3, h4⟩ := key data hag
  rw [h1] at h3
  cases h3
  exact ⟨_, _, _, _, _, _, h4⟩

theorem SwapInv.errs {s : Sys} (h : SwapInv c io s) : s.errs = 0 := by
  obtain ⟨_, _, _, _, _, _, hI⟩ := h _ (agree_self _)
  exact hI.errs

theorem SwapInv.repair {s : Sys} (h : SwapInv c io s) {i : Nat} {r : ERepair} (hi : s.enc.out[i]? = some (.repair r)) :
    r.id < 2 ^ 32 ∧ r.sym.length < 2 ^ 16 ∧ 8 * r.sym.length % w = 0 := by
  obtain ⟨_, _, _, _, _, _, hI⟩ := h _ (agree_self _)
  obtain ⟨em, hem, hr⟩ := hI.enc.ems_get hi
  cases em with
  | src x => cases hr
  | rep rid Wi =>
    obtain ⟨r', h1, hEnc, hne, hso⟩ := hr
    obtain rfl : r = r' := by injection h1
    have hWd := fun x hx => hI.enc.dataOk x (hI.enc.emLt _ (List.mem_of_getElem? hem) x hx)
    have hrl : rid < 2 ^ 32 := lt_trans (hI.enc.repLt rid Wi (List.mem_of_getElem? hem)) hI.enc.repBound
    have hsl := hEnc.symLen (fun x hx => by obtain ⟨y, hy, rfl⟩ := List.mem_map.1 hx; exact hWd y hy)
    exact ⟨by rw [hEnc.id]; exact hrl, hsl.2⟩

theorem SwapInv.source {s : Sys} (h : SwapInv c io s) {i : Nat} {r : ESource} (hi : s.enc.out[i]? = some (.source r)) :
    r.id < 2 ^ 32 ∧ r.sym.length < 2 ^ 16 := by
  obtain ⟨_, _, _, _, _, _, hI⟩ := h _ (agree_self _)
  obtain ⟨em, hem, hr⟩ := hI.enc.ems_get hi
  cases em with
  | rep rid W' => obtain ⟨r, h1, _⟩ := hr; cases h1
  | src x =>
    have hsr : r = srcOf (fun x => s.committed.getD x []) x := by injection hr
    have hxn := hI.enc.emLt _ (List.mem_of_getElem? hem) x (by simp [Em.ids])
    have hcur := hI.curLt
    have hd := hI.enc.dataOk x hxn
    rw [hsr]
    exact ⟨by show x < 2 ^ 32; omega, hd.2.1⟩

/-! ## The two runs -/

/-- The state with other repairs. -/
def Sys.withR (s : Sys) (R : OMap DRepair) : Sys := { s with dec := s.dec.withR R }

theorem stepPadded_nil (s : Sys) (a : Act) : Sys.stepPadded c s a [] = s.step c a := by
  cases a <;> simp only [Sys.stepPadded, Sys.step, List.append_nil] <;> rfl

theorem bare_long (r : ERepair) (tl : List Byte) : RLong ⟨r.id, r.ids, r.encSize, r.sym ++ [], r.sym.length⟩
    ⟨r.id, r.ids, r.encSize, r.sym ++ tl, r.sym.length⟩ := by
  rw [List.append_nil]
  exact ⟨rfl, rfl, rfl, rfl, tl, rfl⟩

/-- The step of the little-endian machines. -/
theorem stepBare_withR {s s' : Sys} {a : Act} {R : OMap DRepair} (hI : SwapInv c io s) (ha : Allowed c s a) (hl : Longer s.dec.det.repairs R)
    (h : s.stepBare c a = .ok s') (he : s'.errs = s.errs) :
    ∃ R', (s.withR R).step c a = .ok (s'.withR R') ∧ Longer s'.dec.det.repairs R' := by
  have main : s.step c a = .ok s' → ∃ R', (s.withR R).step c a = .ok (s'.withR R') ∧ Longer s'.dec.det.repairs R' := by
    intro h
    obtain ⟨R', h1, h2⟩ := step_tail [] hl h he
    rw [stepPadded_nil] at h1
    exact ⟨R', h1, h2⟩
  unfold Sys.stepBare at h
  split at h
  · split at h
    · rename_i i _ r hi
      obtain ⟨b1, b2, b3⟩ := hI.repair hi
      simp only [Allowed, hi] at ha
      obtain ⟨⟨d, x⟩, h1, h⟩ := bind_ok_iff.1 h
      cases h
      obtain ⟨det', h2, h3⟩ := map_ok_iff.1 h1
      cases h3
      have hb : (writeRepair r).flatten ≠ [] := by simp [writeRepair, beBytes]
      have hrd := readRepair_writeRepair r b1 ha.2.1 b2
      generalize htl : (writeIds r.ids).flatten ++ beBytes 2 r.encSize.toNat ++ beBytes 2 r.sym.length ++ r.sym = tl at hrd
      obtain ⟨R', k1, k2⟩ := onRepair_tail (bare_long r tl) hl h2
      have hN := notify_repairVia c.gf c.dbg c.clk (s.dec.withR R) _ _ _ hb (getPacketType_repair r) hrd _ k1
      refine ⟨R', ?_, ?_⟩
      · simp only [Sys.step]
        rw [show (s.withR R).enc.out[i]? = _ from hi]
        refine bind_ok_iff.2 ⟨_, hN, ?_⟩
        have := afterDet_R c.clk s.dec.gotRepair det' R R'
        unfold Sys.withR
        rw [show (NDec.afterDet c.clk s.dec.gotRepair det').withR R' = _ from this.symm]
        rfl
      · show Longer (NDec.afterDet c.clk s.dec.gotRepair det').det.repairs R'
        unfold NDec.afterDet; rw [foldHandle_repairs]; exact k2
    · exact main h
  · exact main h

theorem notifyBE_source {dbg : Bool} {clk : Clock} {gf : GF w} (d : NDec) {q : List Byte} {x : DSource} {n : Nat} {det' : Dec}
    (ht : getPacketType q = .ok .source) (hr : readSource q = .ok (x, n)) (h : d.det.onSourceBE gf dbg x = .ok det') :
    d.notifyBE gf dbg clk q = .ok (d.gotSource.afterDet clk det', .ok n) := by
  unfold NDec.notifyBE
  rw [cassert_ok _ (len_ne (ne_nil_of_type ht))]
  simp only [bind, Except.bind, ht, hr, h]
  rfl

theorem notifyBE_repair {dbg : Bool} {clk : Clock} {gf : GF w} (d : NDec) {q : List Byte} {x : DRepair} {n : Nat} {det' : Dec}
    (ht : getPacketType q = .ok .repair) (hr : readRepair q = .ok (x, n)) (h : d.det.onRepairBE gf dbg x = .ok det') :
    d.notifyBE gf dbg clk q = .ok (d.gotRepair.afterDet clk det', .ok n) := by
  unfold NDec.notifyBE
  rw [cassert_ok _ (len_ne (ne_nil_of_type ht))]
  simp only [bind, Except.bind, ht, hr, h]
  rfl

/-- A step that hands no repair over, on the machines of the other byte order. -/
theorem step_sw (hw : ValidW w) {u u' : Sys} {a : Act} (h : u.step c a = .ok u')
    (hs : ∀ i, a = .deliver i → u.enc.out[i]? = none ∨ ∃ sr, u.enc.out[i]? = some (.source sr) ∧ sr.id < 2 ^ 32 ∧ sr.sym.length < 2 ^ 16) :
    (u.sw w).stepOrd true true c (a.sw w) = .ok (u'.sw w) := by
  cases a with
  | commit d =>
    simp only [Sys.step, bind_ok_iff] at h
    obtain ⟨e, h1, h⟩ := h
    cases h
    simp only [Act.sw, Sys.stepOrd, if_true, Sys.stepBE]
    refine bind_ok_iff.2 ⟨_, commit_sw hw h1, ?_⟩
    unfold Sys.sw
    simp only [List.map_append, List.map_cons, List.map_nil]
    rfl
  | repair =>
    simp only [Sys.step, bind_ok_iff] at h
    obtain ⟨e, h1, h⟩ := h
    cases h
    simp only [Act.sw, Sys.stepOrd, if_true, Sys.stepBE]
    exact bind_ok_iff.2 ⟨_, generateRepair_sw hw h1, rfl⟩
  | setRate n =>
    simp only [Sys.step, bind_ok_iff, Enc.setRate] at h
    obtain ⟨e, ⟨_, h1, h2⟩, h⟩ := h
    cases h; cases h2
    simp only [Act.sw, Sys.stepOrd, if_true, Sys.stepBE, Sys.step, Enc.setRate]
    exact bind_ok_iff.2 ⟨_, bind_ok_iff.2 ⟨(), h1, rfl⟩, rfl⟩
  | setWindow n =>
    simp only [Sys.step, bind_ok_iff, Enc.setWindowSize] at h
    obtain ⟨e, ⟨_, h1, h2⟩, h⟩ := h
    cases h; cases h2
    simp only [Act.sw, Sys.stepOrd, if_true, Sys.stepBE, Sys.step, Enc.setWindowSize]
    exact bind_ok_iff.2 ⟨_, bind_ok_iff.2 ⟨(), h1, rfl⟩, rfl⟩
  | setAckNb n =>
    simp only [Sys.step, bind_ok_iff, NDec.setAckNb] at h
    obtain ⟨e, ⟨_, h1, h2⟩, h⟩ := h
    cases h; cases h2
    simp only [Act.sw, Sys.stepOrd, if_true, Sys.stepBE, Sys.step, NDec.setAckNb]
    exact bind_ok_iff.2 ⟨_, bind_ok_iff.2 ⟨(), h1, rfl⟩, rfl⟩
  | setAdaptive b => cases h; rfl
  | setSystematic b => cases h; rfl
  | genAck =>
    cases h
    simp only [Act.sw, Sys.stepOrd, if_true, Sys.stepBE, Sys.step, NDec.generateAck]
    unfold Sys.sw NDec.sw Dec.sw
    simp only [mapV_keys]
    rfl
  | maybeAck =>
    cases h
    simp only [Act.sw, Sys.stepOrd, if_true, Sys.stepBE, Sys.step, NDec.maybeAck]
    rw [show (u.sw w).dec.det.sources.keys = u.dec.det.sources.keys from mapV_keys .., show (u.sw w).dec = u.dec.sw w from rfl,
      maybeAckWith_sw]
    rfl
  | setAckPeriod ms => cases h; rfl
  | ack j =>
    simp only [Act.sw, Sys.stepOrd, if_true, Sys.stepBE, Sys.step] at h ⊢
    rw [show (u.sw w).dec.out = u.dec.out from rfl]
    cases hj : u.dec.out[j]? with
    | none => rw [hj] at h; cases h; rfl
    | some p =>
      rw [hj] at h
      obtain ⟨⟨e, x⟩, h1, h⟩ := bind_ok_iff.1 h
      cases h
      exact bind_ok_iff.2 ⟨_, encNotify_sw h1, rfl⟩
  | deliver i =>
    simp only [Act.sw, Sys.stepOrd, if_true, out_sw]
    simp only [Sys.step] at h
    rcases hs i rfl with h0 | ⟨sr, h0, b1, b2⟩
    · rw [h0] at h ⊢; cases h; rfl
    · rw [h0] at h ⊢
      obtain ⟨⟨d, x⟩, h1, h⟩ := bind_ok_iff.1 h
      cases h
      rw [show (EPkt.source sr).bytes = (writeSource sr).flatten from rfl, NDec.notify_of_source _ _ _ _ (getPacketType_source sr),
        readSource_writeSource sr b1 b2] at h1
      obtain ⟨det', h2, h3⟩ := map_ok_iff.1 h1
      cases h3
      have k := onSource_sw hw h2
      have hr := readSource_writeSource (sr.sw w) b1 (by show (swapped w sr.sym).length < _; rw [swapped_length]; exact b2)
      refine bind_ok_iff.2 ⟨_, notifyBE_source _ (getPacketType_source (sr.sw w)) hr k, ?_⟩
      unfold Sys.sw
      simp only
      rw [← afterDet_sw]
      rfl

/-- The step of the machines of the other byte order. -/
theorem stepBare_sw (hw : ValidW w) {s s' : Sys} {a : Act} {R : OMap DRepair} (hI : SwapInv c io s) (ha : Allowed c s a)
    (hl : Longer s.dec.det.repairs R) (h : s.stepBare c a = .ok s') (he : s'.errs = s.errs) :
    ∃ R', ((s.withR R).sw w).stepOrd true true c (a.sw w) = .ok ((s'.withR R').sw w) ∧ Longer s'.dec.det.repairs R' := by
  by_cases hd : ∃ i r, a = .deliver i ∧ s.enc.out[i]? = some (.repair r)
  · obtain ⟨i, r, rfl, hi⟩ := hd
    obtain ⟨b1, b2, b3⟩ := hI.repair hi
    simp only [Allowed, hi] at ha
    simp only [Sys.stepBare, hi] at h
    obtain ⟨⟨d, x⟩, h1, h⟩ := bind_ok_iff.1 h
    cases h
    obtain ⟨det', h2, h3⟩ := map_ok_iff.1 h1
    cases h3
    have hrd := readRepair_writeRepair (r.sw w) b1 ha.2.1 (by show (swapped w r.sym).length < _; rw [swapped_length]; exact b2)
    generalize htl : (writeIds (r.sw w).ids).flatten ++ beBytes 2 (r.sw w).encSize.toNat ++ beBytes 2 (r.sw w).sym.length ++ (r.sw w).sym = tl at hrd
    obtain ⟨R', k1, k2⟩ := onRepair_tail (bare_long r (swapped w tl)) hl h2
    have k := onRepair_sw hw k1
    have er : DRepair.sw w ⟨r.id, r.ids, r.encSize, r.sym ++ swapped w tl, r.sym.length⟩ =
        ⟨(r.sw w).id, (r.sw w).ids, (r.sw w).encSize, (r.sw w).sym ++ tl, (r.sw w).sym.length⟩ := by
      unfold DRepair.sw ERepair.sw
      simp only
      rw [swapped_append _ (word_dvd hw b3), swapped_swapped, swapped_length]
    rw [er] at k
    refine ⟨R', ?_, ?_⟩
    · simp only [Act.sw, Sys.stepOrd, if_true, out_sw]
      rw [show (s.withR R).enc.out[i]? = _ from hi]
      refine bind_ok_iff.2 ⟨_, notifyBE_repair _ (getPacketType_repair (r.sw w)) hrd k, ?_⟩
      have e1 := afterDet_R c.clk s.dec.gotRepair det' R R'
      have e2 := afterDet_sw (w := w) c.clk (s.dec.gotRepair.withR R) (det'.withR R')
      rw [e1] at e2
      unfold Sys.withR Sys.sw
      simp only
      rw [← e2]
      rfl
    · show Longer (NDec.afterDet c.clk s.dec.gotRepair det').det.repairs R'
      unfold NDec.afterDet; rw [foldHandle_repairs]; exact k2
  · obtain ⟨R', h1, h2⟩ := stepBare_withR hI ha hl h he
    refine ⟨R', step_sw hw h1 ?_, h2⟩
    rintro i rfl
    show s.enc.out[i]? = none ∨ ∃ sr, s.enc.out[i]? = some (.source sr) ∧ _
    rcases hi : s.enc.out[i]? with _ | (sr | r)
    · exact Or.inl rfl
    · exact Or.inr ⟨sr, rfl, hI.source hi⟩
    · exact absurd ⟨i, r, rfl, hi⟩ hd

/-- The states of the machines of both orders, next to each other. -/
def OrdPair (c : Cfg w) (io : Bool) (s t : Sys) : Prop :=
  ∃ b R R', SwapInv c io b ∧ Longer b.dec.det.repairs R ∧ Longer b.dec.det.repairs R' ∧ t = b.withR R ∧ s = (b.withR R').sw w

theorem pair_init (c : Cfg w) (io : Bool) : OrdPair c io (Sys.init c.clk io) (Sys.init c.clk io) :=
  ⟨Sys.init c.clk io, [], [], fun data _ => ⟨[], ∅, 0, 0, ∅, ∅, sysInv_init c io data⟩, Longer.nil, Longer.nil, rfl, rfl⟩

theorem pair_step (hc : c.Ok) {s t : Sys} (h : OrdPair c io s t) {a : Act} (ha : Allowed c s a) :
    Allowed c t (a.sw w) ∧ ∃ s' t', s.stepOrd true true c a = .ok s' ∧ t.step c (a.sw w) = .ok t' ∧ OrdPair c io s' t' := by
  obtain ⟨b, R, R', hI, h1, h2, rfl, rfl⟩ := h
  have hb : Allowed c b (a.sw w) := (allowed_withR h2.keyIds).1 ((allowed_sw c _ a).1 ha)
  obtain ⟨b', k1, k2⟩ := hI.step hc hb
  have he : b'.errs = b.errs := by rw [hI.errs, k2.errs]
  obtain ⟨S, s1, s2⟩ := stepBare_withR hI hb h1 k1 he
  obtain ⟨S', s3, s4⟩ := stepBare_sw hc.width hI hb h2 k1 he
  rw [Act.sw_sw] at s3
  exact ⟨(allowed_withR h1.keyIds).2 hb, _, _, s3, s1, b', S, S', k2, s2, s4, rfl, rfl⟩

theorem pair_allowed {s t : Sys} (h : OrdPair c io s t) {a : Act} (ha : Allowed c t a) : Allowed c s (a.sw w) := by
  obtain ⟨b, R, R', hI, h1, h2, rfl, rfl⟩ := h
  rw [allowed_sw, Act.sw_sw]
  exact (allowed_withR h2.keyIds).2 ((allowed_withR h1.keyIds).1 ha)

theorem OrdPair.mirror {s t : Sys} (h : OrdPair c io s t) : Mirror w s t := by
  obtain ⟨b, R, R', hI, h1, h2, rfl, rfl⟩ := h
  constructor
  all_goals try rfl
  · show (b.enc.sources.map (ESource.sw w)).map (·.id) = b.enc.sources.map (·.id)
    rw [List.map_map]; rfl
  · exact ⟨rfl, rfl, rfl⟩
  · exact ⟨rfl, rfl, rfl⟩
  · exact ⟨rfl, rfl, rfl⟩
  · exact mapV_keys ..

end Netcode
