import Verif.Proofs.OtherRun
import Verif.Props.Field
import Verif.Props.Decoder
import Mathlib.Logic.Equiv.Basic
import Mathlib.Data.Nat.ModEq
import Mathlib.Data.Fintype.Pigeonhole

/-!
# C63, C64: what a decoder cannot know
-/

set_option linter.unusedSectionVars false

namespace Netcode

variable {w : Nat} {c : Cfg w} {io : Bool} {s : Sys}

/-! ## C63 -/

/-- The sources a packet carries were committed. -/
theorem SysInv.repair_lt [Fact (0 < w)] {data : Nat → List Byte} {ems : List Em} {A : Set Nat} {ρ L : Nat} {W K : Set Nat}
    (hI : SysInv c io data ems A ρ L W K s) {i : Nat} {r : ERepair} (hp : s.enc.out[i]? = some (.repair r)) :
    ∀ x ∈ r.ids, x < s.committed.length := by
  intro x hx
  have hlt : i < ems.length := by rw [← hI.enc.outLen]; exact getElem?_lt hp
  have hem := List.getElem?_eq_getElem hlt
  have hren := hI.enc.rend i _ _ hem hp
  have hlt2 := hI.enc.emLt _ (List.getElem_mem hlt)
  generalize ems[i] = em at hren hlt2
  cases em with
  | src x => cases hren
  | rep rid Wr =>
    obtain ⟨r', hr, hok, hne, hso⟩ := hren
    cases hr
    refine hlt2 x ?_
    show x ∈ Wr
    have h2 : r.ids = Wr := by rw [hok.ids, List.map_map]; exact List.map_id' _
    rw [← h2]; exact hx

theorem SysInv.source_lt [Fact (0 < w)] {data : Nat → List Byte} {ems : List Em} {A : Set Nat} {ρ L : Nat} {W K : Set Nat}
    (hI : SysInv c io data ems A ρ L W K s) {i : Nat} {a : ESource} (hp : s.enc.out[i]? = some (.source a)) :
    a.id < s.committed.length ∧ a.sym = data a.id := by
  have hlt : i < ems.length := by rw [← hI.enc.outLen]; exact getElem?_lt hp
  have hem := List.getElem?_eq_getElem hlt
  have hren := hI.enc.rend i _ _ hem hp
  have hlt2 := hI.enc.emLt _ (List.getElem_mem hlt)
  generalize ems[i] = em at hren hlt2
  cases em with
  | rep rid Wr => obtain ⟨r', hr, -⟩ := hren; cases hr
  | src x =>
    cases hren
    exact ⟨hlt2 x (by simp [Em.ids]), rfl⟩

/-- What a decoder knows it has handed on or still holds, as it was committed. -/
theorem GInv.hasData [Fact (0 < w)] {data : Nat → List Byte} (h : GInv c io data s) :
    (∀ ev ∈ s.dec.det.log, ev.data = data ev.id) ∧ (∀ x, s.dec.det.Holds x → s.dec.det.sources.get? x = some ⟨x, data x⟩) ∧
      ∀ x, s.dec.det.Knows x → x < s.committed.length := by
  cases io with
  | false =>
    obtain ⟨ems, A, ρ, L, W, K, h⟩ := h
    refine ⟨h.dinv.log.logData, fun x hx => ?_, fun x hx => h.knownLt x ((h.knows_iff x).1 hx)⟩
    exact h.dinv.core.get_src (h.dinv.core.src_keys x hx) ((h.dinv.core.has_src x).1 ((OMap.has_iff _ _).2 hx)).2
  | true =>
    obtain ⟨ems, A, ρ, L, W, K, u, h⟩ := h
    refine ⟨h.logData, fun x hx => ?_, fun x hx => h.inv.knownLt x (h.known_of_knows hx)⟩
    have hx' := hx
    unfold Dec.Holds at hx'
    rw [← h.ord.like.same.sources] at hx'
    exact h.held_of_known (h.known_of_knows (.inr hx)) ((h.inv.dinv.core.has_src x).1 ((OMap.has_iff _ _).2 hx')).2

/-- **C63.** A decoder never guesses: what it knows is the same in all assignments of data to the sources that fit the packets it
received.  With ordering sources may be late. -/
theorem C63_only_determined_partial (hc : c.Ok) (h : ReachLate c io s) (data : Nat → List Byte)
    (hd : ∀ x < s.committed.length, DataOk w (data x))
    (hf : ∀ i ∈ s.hist, ∀ p, s.enc.out[i]? = some p → p.Fits c.gf data) :
    ∀ x, s.dec.det.Knows x → s.committed[x]? = some (data x) := by
  have := fact_of_valid hc.width
  intro x hx
  have hG := ginv_of_late hc h (comData s) (comData_agree s)
  obtain ⟨u, ems, A, ρ, L, W, K, hI⟩ := hG.view
  obtain ⟨hlog, hhold, hcom⟩ := hG.hasData
  have hxl := hcom x hx
  -- data for all numbers
  let data' : Nat → List Byte := fun z => if z < s.committed.length then data z else data x
  have hlt : ∀ z < s.committed.length, data' z = data z := fun z hz => if_pos hz
  have hd' : ∀ z, DataOk w (data' z) := by
    intro z
    show DataOk w (if _ then _ else _)
    split
    · exact hd z (by assumption)
    · exact hd x hxl
  have hf' : ∀ i ∈ s.hist, ∀ p, s.enc.out[i]? = some p → p.Fits c.gf data' := by
    intro i hi p hp
    have h1 := hf i hi p hp
    cases p with
    | source a =>
      show a.sym = data' a.id
      rw [hlt _ (hI.source_lt hp).1]; exact h1
    | repair r =>
      have hr := hI.repair_lt hp
      refine ⟨?_, fun z hz => by rw [hlt z (hr z hz)]; exact h1.2 z hz⟩
      have : (r.ids.map fun z => (⟨z, data' z⟩ : ESource)) = r.ids.map fun z => ⟨z, data z⟩ :=
        List.map_congr_left (fun z hz => by rw [hlt z (hr z hz)])
      rw [this]; exact h1.1
  obtain ⟨s', hr', ht⟩ := otherRun_of_reach hc hd' h hf'
  obtain ⟨hlog', hhold', -⟩ := (ginv_of_late hc hr' data' ht.agree).hasData
  rw [ht.dec] at hlog' hhold'
  have e : comData s x = data' x := by
    rcases hx with hx | hx
    · obtain ⟨ev, h1, rfl⟩ := List.mem_map.1 hx
      rw [← hlog ev h1, ← hlog' ev h1]
    · have h1 := hhold x hx
      rw [hhold' x hx] at h1
      simpa using h1.symm
  rw [hlt x hxl] at e
  rw [← e]
  unfold comData
  rw [List.getD_eq_getElem?_getD, List.getElem?_eq_getElem hxl]
  rfl

/-! ## C64 -/

/-- Coefficients are smaller than the number of elements of the field. -/
theorem coefficient_inj (hv : ValidW w) {r x r' x' : Nat} : coefficient w r x = coefficient w r' x' ↔ coefficientNat w r x = coefficientNat w r' x' := by
  constructor
  · intro h
    have := congrArg BitVec.toNat h
    unfold coefficient at this
    rw [BitVec.toNat_ofNat, BitVec.toNat_ofNat, Nat.mod_eq_of_lt (C15_coefficient_valid hv r x).2.1,
      Nat.mod_eq_of_lt (C15_coefficient_valid hv r' x').2.1] at this
    exact this
  · intro h; unfold coefficient; rw [h]

/-- The coefficient, when nothing overflows. -/
theorem coefficientNat_small (hw : w ≠ 32) {r x : Nat} (h : (r + x + 2) * (r + 1) < 2 ^ 32) :
    coefficientNat w r x = (r + x + 2) * (r + 1) % (2 ^ w - 1) + 1 := by
  have h1 : r + x + 2 < 2 ^ 32 := by
    have : (r + x + 2) * 1 ≤ (r + x + 2) * (r + 1) := Nat.mul_le_mul_left _ (by omega)
    omega
  unfold coefficientNat
  simp only
  rw [if_neg hw, Nat.mod_eq_of_lt (show r + 1 < 2 ^ 32 by omega), Nat.mod_eq_of_lt (show x + 1 < 2 ^ 32 by omega),
    Nat.mod_eq_of_lt (show r + 1 + (x + 1) < 2 ^ 32 by omega), show r + 1 + (x + 1) = r + x + 2 by omega, Nat.mod_eq_of_lt h]

/-- **C64.** Two sources whose numbers differ by a multiple of 2^w - 1 have the same coefficient in each repair (as long as the
computation of the coefficient does not overflow). -/
theorem C64_same_coefficient (hv : ValidW w) (hw : w ≠ 32) {r x y : Nat} (hxy : x % (2 ^ w - 1) = y % (2 ^ w - 1))
    (hx : (r + x + 2) * (r + 1) < 2 ^ 32) (hy : (r + y + 2) * (r + 1) < 2 ^ 32) :
    coefficient w r x = coefficient w r y := by
  rw [coefficient_inj hv, coefficientNat_small hw hx, coefficientNat_small hw hy]
  congr 1
  have h : x ≡ y [MOD 2 ^ w - 1] := hxy
  exact Nat.ModEq.mul_right _ (by
    have := (h.add_left r).add_right 2
    exact this)

theorem byteSum_perm {l l' : List Byte} (h : l.Perm l') : byteSum l = byteSum l' := by
  induction h with
  | nil => rfl
  | cons x _ ih => rw [byteSum_cons, byteSum_cons, ih]
  | swap x y l => rw [byteSum_cons, byteSum_cons, byteSum_cons, byteSum_cons, ← BitVec.xor_assoc, BitVec.xor_comm y x, BitVec.xor_assoc]
  | trans _ _ h1 h2 => exact h1.trans h2

theorem sizeSum_perm {l l' : List (BitVec 16)} (h : l.Perm l') : sizeSum l = sizeSum l' := by
  induction h with
  | nil => rfl
  | cons x _ ih => rw [sizeSum_cons, sizeSum_cons, ih]
  | swap x y l => rw [sizeSum_cons, sizeSum_cons, sizeSum_cons, sizeSum_cons, ← BitVec.xor_assoc, BitVec.xor_comm y x, BitVec.xor_assoc]
  | trans _ _ h1 h2 => exact h1.trans h2

theorem map_swap_perm {ids : List Nat} (hn : ids.Nodup) {x y : Nat} (hb : x ∈ ids ↔ y ∈ ids) :
    (ids.map (Equiv.swap x y)).Perm ids := by
  rw [List.perm_ext_iff_of_nodup (hn.map (Equiv.swap x y).injective) hn]
  have key : ∀ z, z ∈ ids → Equiv.swap x y z ∈ ids := by
    intro z hz
    by_cases h1 : z = x
    · subst h1; rw [Equiv.swap_apply_left]; exact hb.1 hz
    · by_cases h2 : z = y
      · subst h2; rw [Equiv.swap_apply_right]; exact hb.2 hz
      · rw [Equiv.swap_apply_of_ne_of_ne h1 h2]; exact hz
  intro z
  constructor
  · intro hz
    obtain ⟨u, hu, rfl⟩ := List.mem_map.1 hz
    exact key u hu
  · intro hz
    exact List.mem_map.2 ⟨_, key z hz, Equiv.swap_apply_self _ _ _⟩

/-- A repair with the same coefficient for two sources is the same when their data are exchanged. -/
theorem isRepairOf_swap {gf : GF w} {r : ERepair} {data : Nat → List Byte} {x y : Nat} (hn : r.ids.Nodup) (hb : x ∈ r.ids ↔ y ∈ r.ids)
    (hco : coefficient w r.id x = coefficient w r.id y) (h : IsRepairOf gf r.id (r.ids.map fun z => ⟨z, data z⟩) r) :
    IsRepairOf gf r.id (r.ids.map fun z => ⟨z, data (Equiv.swap x y z)⟩) r := by
  have hp := map_swap_perm hn hb
  have hco' : ∀ z, coefficient w r.id (Equiv.swap x y z) = coefficient w r.id z := by
    intro z
    by_cases h1 : z = x
    · subst h1; rw [Equiv.swap_apply_left, hco]
    · by_cases h2 : z = y
      · subst h2; rw [Equiv.swap_apply_right, hco]
      · rw [Equiv.swap_apply_of_ne_of_ne h1 h2]
  have hpd : ∀ {α : Type} (g : Nat → List Byte → α), (∀ z, g (Equiv.swap x y z) = g z) →
      (r.ids.map fun z => g z (data (Equiv.swap x y z))).Perm (r.ids.map fun z => g z (data z)) := by
    intro α g hg
    have : (r.ids.map fun z => g z (data (Equiv.swap x y z))) = (r.ids.map (Equiv.swap x y)).map fun z => g z (data z) := by
      rw [List.map_map]
      refine List.map_congr_left (fun z _ => ?_)
      simp [hg z]
    rw [this]
    exact hp.map _
  refine ⟨rfl, ?_, ?_, ?_, ?_⟩
  · rw [List.map_map]; exact (List.map_id' _).symm
  · have hl := hpd (fun _ d => d.length) (fun _ => rfl)
    have h1 := h.longest
    simp only [List.mem_map, forall_exists_index, and_imp, forall_apply_eq_imp_iff₂, exists_exists_and_eq_and] at h1 ⊢
    constructor
    · intro z hz
      obtain ⟨u, hu, e⟩ := List.mem_map.1 (hl.mem_iff.1 (List.mem_map.2 ⟨z, hz, rfl⟩))
      rw [← e]; exact h1.1 u hu
    · obtain ⟨u, hu, e⟩ := h1.2
      obtain ⟨z, hz, e2⟩ := List.mem_map.1 (hl.mem_iff.2 (List.mem_map.2 ⟨u, hu, rfl⟩))
      exact ⟨z, hz, by rw [e2, e]⟩
  · intro j
    rw [h.byte j]
    have h1 := hpd (fun z d => (mulRegion gf (coefficient w r.id z) d).getD j 0#8) (fun z => by rw [hco' z])
    have h2 := byteSum_perm h1
    simp only [List.map_map, Function.comp_def] at h2 ⊢
    exact h2.symm
  · rw [h.size]
    have h1 := hpd (fun z d => mulSize gf (BitVec.ofNat 16 d.length) (coefficient w r.id z)) (fun z => by rw [hco' z])
    have h2 := sizeSum_perm h1
    simp only [List.map_map, Function.comp_def] at h2 ⊢
    exact h2.symm

/-- What arrived fits the data committed. -/
theorem SysInv.fits [Fact (0 < w)] {ems : List Em} {A : Set Nat} {ρ L : Nat} {W K : Set Nat} {data : Nat → List Byte} (hc : c.Ok)
    (hI : SysInv c io data ems A ρ L W K s) {i : Nat} {r : ERepair} (hp : s.enc.out[i]? = some (.repair r)) :
    IsRepairOf c.gf r.id (r.ids.map fun z => ⟨z, data z⟩) r ∧ Sorted r.ids := by
  have hlt : i < ems.length := by rw [← hI.enc.outLen]; exact getElem?_lt hp
  have hem := List.getElem?_eq_getElem hlt
  have hren := hI.enc.rend i _ _ hem hp
  have hlt2 := hI.enc.emLt _ (List.getElem_mem hlt)
  generalize ems[i] = em at hren hlt2
  cases em with
  | src x => cases hren
  | rep rid Wr =>
    obtain ⟨r', hr, hok, hne, hso⟩ := hren
    cases hr
    have hq := isRepairOf_of_encOk c.gf hc.width hok (by
      intro s hs
      obtain ⟨x, hx, rfl⟩ := List.mem_map.1 hs
      exact hI.enc.dataOk x (hlt2 x hx))
    have h2 : r.ids = Wr := by rw [hok.ids, List.map_map]; exact List.map_id' _
    rw [h2, hok.id]
    exact ⟨hq, hso⟩

/-- The data committed fit all packets emitted, so that the hypotheses of C63 are met by them. -/
theorem fits_committed (hc : c.Ok) (hw : w ≠ 32) (h : ReachLate c io s) :
    (∀ x < s.committed.length, DataOk w (comData s x)) ∧
      ∀ i ∈ s.hist, ∀ p, s.enc.out[i]? = some p → p.Fits c.gf (comData s) := by
  have := fact_of_valid hc.width
  obtain ⟨u, ems, A, ρ, L, W, K, hI⟩ := (ginv_of_late hc h (comData s) (comData_agree s)).view
  refine ⟨fun x hx => hI.enc.dataOk x hx, fun i _ p hp => ?_⟩
  cases p with
  | source a => exact (hI.source_lt hp).2
  | repair r => exact ⟨(hI.fits hc hp).1, fun z _ h32 => absurd h32 hw⟩

/-- C63 with ordering and late sources. -/
example : ∀ x, (lateReached (cfg8 true) true demoLate).dec.det.Knows x →
    (lateReached (cfg8 true) true demoLate).committed[x]? = some (comData (lateReached (cfg8 true) true demoLate) x) :=
  have h := fits_committed (cfg8_ok true) (by decide) demoLate_reach
  C63_only_determined_partial (cfg8_ok true) demoLate_reach _ h.1 h.2

/-- **C64** is false for two sources whose numbers differ by a multiple of 2^w - 1 (15, 255 or 65535): when both are lost, no repairs
whatsoever recover them. -/
theorem C64_false_congruent (hc : c.Ok) (hw : w ≠ 32) (h : ReachLate c io s) {x y : Nat} (hxy : x % (2 ^ w - 1) = y % (2 ^ w - 1))
    {dx dy : List Byte} (hx : s.committed[x]? = some dx) (hy : s.committed[y]? = some dy) (hne : dx ≠ dy) (hl : s.BothLost x y) :
    ¬ s.dec.det.Knows x ∧ ¬ s.dec.det.Knows y := by
  have := fact_of_valid hc.width
  obtain ⟨u, ems, A, ρ, L, W, K, hI⟩ := (ginv_of_late hc h (comData s) (comData_agree s)).view
  have hxl := getElem?_lt hx
  have hyl := getElem?_lt hy
  have hcx : comData s x = dx := comData_agree s x dx hx
  have hcy : comData s y = dy := comData_agree s y dy hy
  have key := C63_only_determined_partial hc h (fun z => comData s (Equiv.swap x y z)) (by
      intro z hz
      refine hI.enc.dataOk _ ?_
      by_cases h1 : z = x
      · subst h1; rw [Equiv.swap_apply_left]; exact hyl
      · by_cases h2 : z = y
        · subst h2; rw [Equiv.swap_apply_right]; exact hxl
        · rw [Equiv.swap_apply_of_ne_of_ne h1 h2]; exact hz) (by
      intro i hi p hp
      have h1 := hl i hi
      rw [hp] at h1
      cases p with
      | source a =>
        show a.sym = comData s (Equiv.swap x y a.id)
        rw [Equiv.swap_apply_of_ne_of_ne h1.1 h1.2]
        exact (hI.source_lt hp).2
      | repair r =>
        obtain ⟨h2, h3⟩ := hI.fits hc hp
        refine ⟨isRepairOf_swap (h3.imp (fun h => Nat.ne_of_lt h)) h1.1 ?_ h2, fun z _ h32 => absurd h32 hw⟩
        have hm := h1.2
        refine C64_same_coefficient hc.width hw hxy (lt_of_le_of_lt (Nat.mul_le_mul_right _ ?_) hm)
          (lt_of_le_of_lt (Nat.mul_le_mul_right _ ?_) hm) <;> omega)
  constructor
  · intro hk
    have h1 := key x hk
    simp only [Equiv.swap_apply_left, hcy, hx, Option.some.injEq] at h1
    exact hne h1
  · intro hk
    have h1 := key y hk
    simp only [Equiv.swap_apply_right, hcx, hy, Option.some.injEq] at h1
    exact hne h1.symm

/-- One more repair that arrives. -/
theorem one_more (hc : c.Ok) (hw : w ≠ 32) (h : ReachLate c io s) {x y : Nat} (hx : x ∈ s.enc.win) (hy : y ∈ s.enc.win)
    (hwire : WireIds s.enc.win) (hsmall : (s.enc.nbSentRepairs + max x y + 2) * (s.enc.nbSentRepairs + 1) < 2 ^ 32) (hl : s.BothLost x y) :
    ∃ s', s.run c [.repair, .deliver s.enc.out.length] = .ok s' ∧ ReachLate c io s' ∧ s'.BothLost x y ∧ s'.enc.win = s.enc.win ∧
      s'.enc.nbSentRepairs = s.enc.nbSentRepairs + 1 ∧ s'.enc.out.length = s.enc.out.length + 1 ∧ s'.committed = s.committed := by
  have := fact_of_valid hc.width
  obtain ⟨u, ems, A, ρ, L, W, K, hI⟩ := (ginv_of_late hc h (comData s) (comData_agree s)).view
  have hb : s.enc.nbSentRepairs + 1 < 2 ^ 32 := by
    have : (s.enc.nbSentRepairs + max x y + 2) * 1 ≤ (s.enc.nbSentRepairs + max x y + 2) * (s.enc.nbSentRepairs + 1) :=
      Nat.mul_le_mul_left _ (by omega)
    omega
  have hne : s.enc.window ≠ 0 := by
    intro h0
    have h1 : s.enc.sources = [] := List.eq_nil_of_length_eq_zero h0
    unfold Enc.win at hx; rw [h1] at hx; cases hx
  have ha : AllowedLate c s .repair := ⟨hne, hb⟩
  obtain ⟨s1, h1, -⟩ := C05_no_fault_late_partial hc h _ ha
  have hr1 := ReachLate.step h ha h1
  have h1' := h1
  simp only [Sys.step, bind_ok_iff, pure_ok_iff] at h1'
  obtain ⟨e, h2, rfl⟩ := h1'
  obtain ⟨r, h3, rfl⟩ := generateRepair_inv h2
  have hshape := encodeRepair_strip h3
  have hrid : r.id = s.enc.nbSentRepairs := by
    simp only [EPkt.strip, EPkt.repair.injEq, ERepair.mk.injEq] at hshape
    rw [hshape.1]; exact hI.rep
  have hnew : ({ s with enc := s.enc.sentRepair r } : Sys).enc.out[s.enc.out.length]? = some (.repair r) := by
    simp [Enc.sentRepair]
  have hids : r.ids = s.enc.win := by
    have hdok : ∀ z ∈ s.enc.sources, DataOk w z.sym := by
      intro z hz
      have hz : z ∈ (s.hyb u).enc.sources := hz
      rw [hI.enc.srcs] at hz
      obtain ⟨u, hu, rfl⟩ := List.mem_map.1 hz
      exact hI.enc.dataOk u (hI.enc.srcLt u hu)
    obtain ⟨r', h4, h5⟩ := encodeRepair_ok c.gf hc.width c.dbg s.enc.curRep s.enc.sources (by
      rintro h0; unfold Enc.win at hx; rw [h0] at hx; cases hx) hdok hI.enc.srcSorted
    rw [h3] at h4; cases h4
    exact h5.ids
  have ha2 : AllowedLate c { s with enc := s.enc.sentRepair r } (.deliver s.enc.out.length) := by
    simp only [AllowedLate, Allowed, hnew]
    refine ⟨.inl (fun j hj _ => ?_), by rw [hids]; exact hwire, fun z _ h32 => absurd h32 hw⟩
    have := hI.histLt j hj
    rw [← hI.enc.outLen] at this
    have : j < s.enc.out.length := this
    omega
  obtain ⟨s2, h4, -⟩ := C05_no_fault_late_partial hc hr1 _ ha2
  have hr2 := ReachLate.step hr1 ha2 h4
  refine ⟨s2, ?_, hr2, ?_⟩
  · unfold Sys.run
    simp only [List.foldlM_cons, List.foldlM_nil, h1, h4, bind, Except.bind]; rfl
  simp only [Sys.step, hnew, bind_ok_iff, pure_ok_iff] at h4
  obtain ⟨⟨d, q⟩, h5, rfl⟩ := h4
  refine ⟨?_, rfl, rfl, by simp [Enc.sentRepair], rfl⟩
  intro i hi
  rcases List.mem_append.1 hi with hi | hi
  · have hlt : i < s.enc.out.length := by have := hI.histLt i hi; rw [← hI.enc.outLen] at this; exact this
    have h6 : (s.enc.sentRepair r).out[i]? = s.enc.out[i]? := List.getElem?_append_left hlt
    simp only [h6]
    exact hl i hi
  · rw [List.mem_singleton] at hi
    subst hi
    simp only [hnew, hids, hrid]
    exact ⟨⟨fun _ => hy, fun _ => hx⟩, hsmall⟩

/-- **C64** is false: however many repairs are asked for and arrive, with both sources in the window, they are not recovered. -/
theorem C64_false_more (hc : c.Ok) (hw : w ≠ 32) (h : ReachLate c io s) {x y : Nat} (hxy : x % (2 ^ w - 1) = y % (2 ^ w - 1))
    {dx dy : List Byte} (hx : s.committed[x]? = some dx) (hy : s.committed[y]? = some dy) (hne : dx ≠ dy) (hl : s.BothLost x y)
    (hxw : x ∈ s.enc.sources.map (·.id)) (hyw : y ∈ s.enc.sources.map (·.id)) (hwire : WireIds (s.enc.sources.map (·.id))) (m : Nat)
    (hm : (s.enc.nbSentRepairs + m + max x y + 2) * (s.enc.nbSentRepairs + m + 1) < 2 ^ 32) :
    ∃ s', s.run c (repairsArrive s.enc.out.length m) = .ok s' ∧ s'.enc.nbSentRepairs = s.enc.nbSentRepairs + m ∧
      ¬ s'.dec.det.Knows x ∧ ¬ s'.dec.det.Knows y := by
  have key : ∀ m, (s.enc.nbSentRepairs + m + max x y + 2) * (s.enc.nbSentRepairs + m + 1) < 2 ^ 32 →
      ∃ s', s.run c (repairsArrive s.enc.out.length m) = .ok s' ∧ ReachLate c io s' ∧ s'.BothLost x y ∧ s'.enc.win = s.enc.win ∧
      s'.enc.nbSentRepairs = s.enc.nbSentRepairs + m ∧ s'.enc.out.length = s.enc.out.length + m ∧ s'.committed = s.committed := by
    intro m
    induction m with
    | zero => intro _; exact ⟨s, rfl, h, hl, rfl, rfl, rfl, rfl⟩
    | succ m ih =>
      intro hm
      have hm' : (s.enc.nbSentRepairs + m + max x y + 2) * (s.enc.nbSentRepairs + m + 1) < 2 ^ 32 :=
        lt_of_le_of_lt (Nat.mul_le_mul (by omega) (by omega)) hm
      obtain ⟨s1, h1, h2, h3, h4, h5, h6, h7⟩ := ih hm'
      obtain ⟨s2, g1, g2, g3, g4, g5, g6, g7⟩ := one_more hc hw h2 (x := x) (y := y) (by rw [h4]; exact hxw) (by rw [h4]; exact hyw)
        (by rw [h4]; exact hwire) (by rw [h5]; exact hm') h3
      refine ⟨s2, ?_, g2, g3, g4.trans h4, by omega, by omega, g7.trans h7⟩
      unfold Sys.run at h1 g1 ⊢
      rw [repairsArrive, List.foldlM_append, h1]
      rw [h6] at g1
      exact g1
  obtain ⟨s', h1, h2, h3, h4, h5, h6, h7⟩ := key m hm
  obtain ⟨k1, k2⟩ := C64_false_congruent hc hw h2 hxy (by rw [h7]; exact hx) (by rw [h7]; exact hy) hne h3
  exact ⟨s', h1, h5, k1, k2⟩

/-- **C64** is false for 2^w losses, or more, in one window: some are never recovered. -/
theorem C64_false_many (hc : c.Ok) (hw : w ≠ 32) (h : ReachLate c io s) (lost : List Nat) (hn : lost.Nodup) (hlen : 2 ^ w ≤ lost.length)
    (hcom : ∀ x ∈ lost, x < s.committed.length)
    (hdiff : ∀ x ∈ lost, ∀ y ∈ lost, x ≠ y → s.committed[x]? ≠ s.committed[y]?)
    (hl : ∀ x ∈ lost, ∀ y ∈ lost, s.BothLost x y) : ∃ x ∈ lost, ¬ s.dec.det.Knows x := by
  have hpos : 0 < 2 ^ w - 1 := by rcases hc.width with rfl | rfl | rfl | rfl <;> decide
  have hlt : (Finset.range (2 ^ w - 1)).card < lost.toFinset.card := by
    rw [Finset.card_range, List.toFinset_card_of_nodup hn]
    have := Nat.two_pow_pos w
    omega
  obtain ⟨x, hx, y, hy, hxy, he⟩ := Finset.exists_ne_map_eq_of_card_lt_of_maps_to hlt
    (f := fun x => x % (2 ^ w - 1)) (fun x _ => by simpa using Nat.mod_lt _ hpos)
  rw [List.mem_toFinset] at hx
  rw [List.mem_toFinset] at hy
  have hxl := List.getElem?_eq_getElem (hcom x hx)
  have hyl := List.getElem?_eq_getElem (hcom y hy)
  refine ⟨x, hx, (C64_false_congruent hc hw h he hxl hyl ?_ (hl x hx y hy)).1⟩
  intro h0
  exact hdiff x hx y hy hxy (by rw [hxl, hyl, h0])

theorem mul_cancel_left (gf : GF w) {a b d : BitVec w} (ha : a ≠ 0#w) (h : gf.mul a b = gf.mul a d) : b = d := by
  have h1 : gf.mul (gf.inv a) (gf.mul a b) = gf.mul (gf.inv a) (gf.mul a d) := by rw [h]
  rwa [← gf.mul_assoc, ← gf.mul_assoc, gf.mul_comm (gf.inv a) a, gf.mul_inv a ha, gf.one_mul, gf.one_mul] at h1

/-- **C64** for two losses: if the numbers of the sources do not differ by a multiple of 2^w - 1, then, whatever repair is held,
one of any 2^w - 1 repairs in a row has with it a minor that is not zero, so that it recovers both (C44). -/
theorem C64_two_partial (gf : GF w) (hv : ValidW w) (hw : w ≠ 32) {x y : Nat} (q p : Nat) (hxy : x % (2 ^ w - 1) ≠ y % (2 ^ w - 1))
    (hs : (p + (2 ^ w - 1) + max x y + 2) * (p + (2 ^ w - 1) + 1) < 2 ^ 32) :
    ∃ r, p < r ∧ r ≤ p + (2 ^ w - 1) ∧
      gf.mul (coefficient w q x) (coefficient w r y) ≠ gf.mul (coefficient w q y) (coefficient w r x) := by
  have hm3 : 3 ≤ 2 ^ w - 1 := by rcases hv with rfl | rfl | rfl | rfl <;> decide
  generalize hm : 2 ^ w - 1 = m at hxy hs hm3
  -- a repair in this range with a given remainder
  have hex : ∀ t < m, ∃ r, p < r ∧ r ≤ p + m ∧ (r + 1) % m = t := by
    intro t ht
    have h1 := Nat.mod_lt (p + 2) (show 0 < m by omega)
    have h2 := Nat.div_add_mod (p + 2) m
    generalize (p + 2) % m = u at h1 h2
    generalize (p + 2) / m = v at h2
    by_cases htu : u ≤ t
    · refine ⟨p + 1 + (t - u), by omega, by omega, ?_⟩
      have : p + 1 + (t - u) + 1 = m * v + t := by omega
      rw [this, Nat.mul_add_mod, Nat.mod_eq_of_lt ht]
    · refine ⟨p + 1 + (t + m - u), by omega, by omega, ?_⟩
      have : p + 1 + (t + m - u) + 1 = m * (v + 1) + t := by rw [Nat.mul_add, Nat.mul_one]; omega
      rw [this, Nat.mul_add_mod, Nat.mod_eq_of_lt ht]
  have hsm : ∀ r z, r ≤ p + m → z ≤ max x y → (r + z + 2) * (r + 1) < 2 ^ 32 := by
    intro r z h1 h2
    exact lt_of_le_of_lt (Nat.mul_le_mul (by omega) (by omega)) hs
  by_cases hq : coefficient w q x = coefficient w q y
  · obtain ⟨r, h1, h2, h3⟩ := hex 1 (by omega)
    refine ⟨r, h1, h2, fun h0 => ?_⟩
    rw [hq] at h0
    have h4 := mul_cancel_left gf (coefficient_ne_zero hv q y) h0
    rw [coefficient_inj hv, coefficientNat_small hw (hsm r y h2 (by omega)), coefficientNat_small hw (hsm r x h2 (by omega)), hm] at h4
    have h5 : (r + y + 2) * (r + 1) ≡ (r + x + 2) * (r + 1) [MOD m] := by
      unfold Nat.ModEq; omega
    have h6 : r + 1 ≡ 1 [MOD m] := by unfold Nat.ModEq; rw [h3, Nat.mod_eq_of_lt (show 1 < m by omega)]
    have h7 : ∀ z, (r + z + 2) * (r + 1) ≡ z + 2 [MOD m] := by
      intro z
      have := (Nat.ModEq.mul (show r + z + 2 ≡ 1 + (z + 1) [MOD m] by
        have := h6.add_right (z + 1)
        rwa [show r + 1 + (z + 1) = r + z + 2 by omega] at this) h6)
      rwa [Nat.mul_one, show 1 + (z + 1) = z + 2 by omega] at this
    have h8 := ((h7 y).symm.trans h5).trans (h7 x)
    exact hxy (Nat.ModEq.add_right_cancel' 2 h8).symm
  · obtain ⟨r, h1, h2, h3⟩ := hex 0 (by omega)
    have hone : ∀ z ≤ max x y, coefficient w r z = 1#w := by
      intro z hz
      unfold coefficient
      rw [coefficientNat_small hw (hsm r z h2 hz), hm]
      have : (r + z + 2) * (r + 1) % m = 0 := by rw [Nat.mul_mod, h3, Nat.mul_zero, Nat.zero_mod]
      rw [this]
    refine ⟨r, h1, h2, fun h0 => hq ?_⟩
    rw [hone x (by omega), hone y (by omega), gf.mul_comm, gf.one_mul, gf.mul_comm, gf.one_mul] at h0
    exact h0

/-- GF(2^4): sources 0 to 15, of which 0 and 15 are lost, and three repairs of all sixteen. -/
def fifteenActs : List Act :=
  [.setRate 50] ++ (List.range 16).map (fun k => .commit [BitVec.ofNat 8 (k + 1)]) ++ (List.range 14).map (fun k => .deliver (k + 1)) ++
    [.repair, .deliver 16, .repair, .deliver 17, .repair, .deliver 18]

instance (s : Sys) (x y : Nat) : Decidable (s.BothLost x y) := by
  unfold Sys.BothLost
  refine @List.decidableBAll _ _ (fun i => ?_) _
  split <;> infer_instance

theorem fifteen_reach : Reach (cfg4 true) false (reached (cfg4 true) false fifteenActs) := reached_reach (by decide +kernel)
theorem fifteen_lost : (reached (cfg4 true) false fifteenActs).BothLost 0 15 := by decide +kernel

/-- Everything else was received, and three repairs. -/
example : (reached (cfg4 true) false fifteenActs).dec.det.handed = [1, 2, 3, 4, 5, 6, 7, 8, 9, 10, 11, 12, 13, 14] ∧
    (reached (cfg4 true) false fifteenActs).hist = [1, 2, 3, 4, 5, 6, 7, 8, 9, 10, 11, 12, 13, 14, 16, 17, 18] := by decide +kernel

example : ¬ (reached (cfg4 true) false fifteenActs).dec.det.Knows 0 ∧ ¬ (reached (cfg4 true) false fifteenActs).dec.det.Knows 15 :=
  C64_false_congruent ⟨by decide, F0_ok⟩ (by decide) (late_of_reach fifteen_reach) (x := 0) (y := 15) (by decide) (dx := [1]) (dy := [16])
    (by decide +kernel) (by decide +kernel) (by decide) fifteen_lost

/-- Nor do 65000 more repairs help. -/
example : ∃ s', (reached (cfg4 true) false fifteenActs).run (cfg4 true)
      (repairsArrive (reached (cfg4 true) false fifteenActs).enc.out.length 65000) = .ok s' ∧
    s'.enc.nbSentRepairs = (reached (cfg4 true) false fifteenActs).enc.nbSentRepairs + 65000 ∧
    ¬ s'.dec.det.Knows 0 ∧ ¬ s'.dec.det.Knows 15 :=
  C64_false_more ⟨by decide, F0_ok⟩ (by decide) (late_of_reach fifteen_reach) (x := 0) (y := 15) (by decide) (dx := [1]) (dy := [16])
    (by decide +kernel) (by decide +kernel) (by decide) fifteen_lost (by decide +kernel) (by decide +kernel) (by decide +kernel) 65000
    (by
      have h : (reached (cfg4 true) false fifteenActs).enc.nbSentRepairs = 3 := by decide +kernel
      rw [h]; decide)

/-- GF(2^4), sixteen losses: sources 0 to 15 are all lost. -/
example : ∃ x ∈ List.range 16,
    ¬ (reached (cfg4 true) false ([.setRate 50] ++ (List.range 16).map (fun k => .commit [BitVec.ofNat 8 (k + 1)]) ++
      [.repair, .deliver 16, .repair, .deliver 17])).dec.det.Knows x :=
  C64_false_many ⟨by decide, F0_ok⟩ (by decide) (io := false) (late_of_reach <| reached_reach (by decide +kernel)) (List.range 16) (by decide) (by decide)
    (by decide +kernel) (by decide +kernel) (by decide +kernel)

example : ∃ r, 7 < r ∧ r ≤ 7 + 255 ∧ gf8.mul (coefficient 8 7 3) (coefficient 8 r 20) ≠ gf8.mul (coefficient 8 7 20) (coefficient 8 r 3) :=
  C64_two_partial gf8 (by decide) (by decide) 7 7 (by decide) (by decide)

end Netcode
