import Verif.Proofs.DecOld
import Verif.Proofs.DecHist
import Verif.Props.System
import Verif.Props.Defects
import Verif.Props.Window

/-!
# C69: repairs that newer repairs have overtaken

Which of them do no harm (`Dec.Harmless`) is part of the schedules (`Verif/Spec/Schedule.lean`), so all the theorems about these
schedules hold with them.  Here: what they do, and that the limit is needed.
-/

set_option linter.unusedSectionVars false

namespace Netcode

variable {w : Nat} {c : Cfg w} {io : Bool} {s : Sys}

/-- **C69.** A repair that lists only outdated sources, or that is held, changes nothing but the count of the repairs that arrived and
what concerns the acks: for every decoder and every repair, however it came about. -/
theorem C69_ignored (gf : GF w) (dbg : Bool) (d : Dec) (r : DRepair) (hne : r.ids ≠ [])
    (h : (∀ x ∈ r.ids, d.Outdated x) ∨ ∃ q ∈ d.repairs, q.1 = r.id) : d.onRepair gf dbg r = .ok d := by
  refine onRepair_stays dbg r hne ?_
  rcases h with h | ⟨q, h1, h2⟩
  · left
    obtain ⟨a, ha⟩ : ∃ a, a ∈ r.ids := List.exists_mem_of_ne_nil _ hne
    obtain ⟨l, h1, -⟩ := h a ha
    refine ⟨l, h1, fun x hx => ?_⟩
    obtain ⟨l', h2, h3⟩ := h x hx
    rw [h1] at h2
    cases h2
    exact h3
  · right
    rw [OMap.has_iff, ← h2]
    exact List.mem_map_of_mem h1

/-- Repair 0 arrives a second time, while it is held, and when it is outdated. -/
def demoAgain : List Act :=
  [.setRate 2, .setWindow 2, .commit (dat 0), .commit (dat 1), .deliver 2, .deliver 2, .commit (dat 2), .commit (dat 3), .deliver 5, .deliver 2]
example : let s := reached (cfg8 true) false demoAgain
    s.hist = [2, 2, 5, 2] ∧ s.dec.nbRepairs = 4 ∧ s.dec.det.repairs.map (fun q => (q.1, q.2.ids)) = [(1, [2, 3])] := by
  decide +kernel
example : Reach (cfg8 true) false (reached (cfg8 true) false demoAgain) :=
  reached_reach (by decide +kernel)

/-- **C69, the limit is needed.** An overtaken repair that starts where the newest one starts and lists exactly one unknown source,
while repairs are held: the source is decoded, but all the repairs that are held still count it among their unknown sources
(`C43_held_partial` excludes that for the schedules considered; `C01_false` shows what comes of it). -/
theorem C69_false_single (hc : c.Ok) (h : Reach c io s) (i : Nat) (r : ERepair) (hi : s.enc.out[i]? = some (.repair r))
    (hold : ∃ j ∈ s.hist, s.isRepair j ∧ i < j) (hnot : ∀ q ∈ s.dec.det.repairs, q.1 ≠ r.id)
    (hstart : s.dec.det.lastId = r.ids.head?) (x : Nat) (hx : r.ids.filter (fun y => decide (¬ s.dec.det.Knows y)) = [x])
    (hheld : s.dec.det.repairs ≠ []) (hwire : WireIds r.ids)
    (hfit : ∀ x ∈ r.ids, SizeFits c.gf (coefficient w r.id x) (BitVec.ofNat 16 (s.committed.getD x []).length)) :
    ∃ s', s.step c (.deliver i) = .ok s' ∧ s'.dec.det.Knows x ∧ s'.dec.det.repairs ≠ [] ∧
      ∀ q ∈ s'.dec.det.repairs, x ∈ q.2.ids := by
  have := fact_of_valid hc.width
  obtain ⟨ems, A, ρ, L, W, K, hI⟩ := inv_of_reach hc h
  obtain ⟨em, hem, hr⟩ := hI.enc.ems_get hi
  cases em with
  | src x => cases hr
  | rep rid Wi =>
    obtain ⟨r', h1, hEnc, hne, hso⟩ := hr
    obtain rfl : r = r' := by injection h1
    have hids : r.ids = Wi := by rw [hEnc.ids, List.map_map]; exact List.map_id Wi
    have hrid := hEnc.id
    have hWn : ∀ x ∈ Wi, x < s.committed.length := fun x hx => hI.enc.emLt _ (List.mem_of_getElem? hem) x hx
    have hWd : ∀ x ∈ Wi, DataOk w (comData s x) := fun x hx => hI.enc.dataOk x (hWn x hx)
    have hcur := hI.curLt
    have hrl : rid < 2 ^ 32 := lt_trans (hI.enc.repLt rid Wi (List.mem_of_getElem? hem)) hI.enc.repBound
    have hsl := (hEnc.symLen (fun x hx => by obtain ⟨y, hy, rfl⟩ := List.mem_map.1 hx; exact hWd y hy)).2.1
    obtain ⟨tail, n, hread⟩ : ∃ tail n, readRepair (writeRepair r).flatten =
        .ok (⟨r.id, r.ids, r.encSize, r.sym ++ tail, r.sym.length⟩, n) :=
      ⟨_, _, readRepair_writeRepair r (by rw [hrid]; exact hrl) hwire hsl⟩
    have hrep := repOk_of_wire c.gf hc.width (comData s) rid Wi r hEnc hso hWd
      (fun x hx => by have := hfit x (by rw [hids]; exact hx); rwa [hrid] at this) tail
    obtain ⟨j, hj, Wl, hjl, hWl, hhd, hij⟩ : ∃ j ∈ s.hist, ∃ Wl, ems[j]? = some (.rep ρ Wl) ∧ W = {x | x ∈ Wl} ∧
        Wl.head? = some L ∧ i < j := by
      obtain ⟨j0, g1, ⟨r0, g2⟩, g3⟩ := hold
      obtain ⟨em0, g4, g5⟩ := hI.enc.ems_get g2
      have g6 : ∃ rid0 W0, ems[j0]? = some (.rep rid0 W0) := by
        cases em0 with
        | src x => cases g5
        | rep a b => exact ⟨a, b, g4⟩
      obtain ⟨rid0, W0, g6⟩ := g6
      rcases hI.newest with ⟨h1, _⟩ | ⟨j, hj, Wl, h1, h2, h3, h4⟩
      · exact absurd g6 (h1 j0 g1 _ _)
      · exact ⟨j, hj, Wl, h1, h2, h3, by have := h4 j0 g1 _ _ g6; omega⟩
    have hf : r.ids.head? = some L := by
      rcases hI.dinv.last with ⟨_, _, h3⟩ | h3
      · exfalso
        have : L ∈ W := by rw [hWl]; exact List.mem_of_mem_head? hhd
        rw [h3] at this; cases this
      · rw [← hstart]; exact h3
    have hge : ∀ x ∈ r.ids, L ≤ x := fun x hx => first_le hwire.1 hf hx
    have hWi : ∀ x ∈ r.ids, x ∉ K → x ∈ W := by
      intro x hx hk
      have h0 := hge x hx
      rw [hWl]
      rw [hids] at hx
      rcases hI.enc.f1 i j _ _ _ hij hem hjl x hx with hg | hg | hg
      · exact hg
      · exact absurd (hI.ackK hg) hk
      · have := hg L (List.mem_of_mem_head? hhd); omega
    have hxm : ∀ y, (y ∈ r.ids ∧ y ∉ K) ↔ y = x := by
      intro y
      have : y ∈ r.ids.filter (fun y => decide (¬ s.dec.det.Knows y)) ↔ y = x := by rw [hx]; simp
      rw [List.mem_filter, decide_eq_true_eq, hI.knows_iff] at this
      exact this
    obtain ⟨hx1, hx2⟩ := (hxm x).2 rfl
    obtain ⟨det', e1, e2, e3⟩ := onRepair_single c.dbg hc.width hI.dinv
      ⟨r.id, r.ids, r.encSize, r.sym ++ tail, r.sym.length⟩ hf hrep
      (by
        rw [OMap.has_false_iff]
        intro hm
        obtain ⟨q, h1, h2⟩ := List.mem_map.1 hm
        exact hnot q h1 h2)
      hWi (by intro y hy; simp only at hy; rw [hids] at hy; have := hWn y hy; omega) x hx1 hx2 (fun y h1 h2 => (hxm y).1 ⟨h1, h2⟩)
    have hext := onRepair_ext e1
    have hb : (writeRepair r).flatten ≠ [] := by simp [writeRepair, beBytes]
    have hN := notify_repairVia c.gf c.dbg c.clk s.dec _ _ n hb (getPacketType_repair r) hread det' e1
    have hdet : (NDec.afterDet c.clk { s.dec with nbRepairs := s.dec.nbRepairs + 1, ackPackets := (s.dec.ackPackets + 1) % 2 ^ 16 } det').det = det' :=
      (afterDet_step c.clk s.dec.gotRepair det' hext.log).2.1
    generalize NDec.afterDet c.clk { s.dec with nbRepairs := s.dec.nbRepairs + 1, ackPackets := (s.dec.ackPackets + 1) % 2 ^ 16 } det' = nd at hN hdet
    refine ⟨{ s with dec := nd, hist := s.hist ++ [i], errs := s.errs + 0 }, ?_, ?_, ?_, ?_⟩
    · simp only [Sys.step]
      rw [hi]
      simp only [EPkt.bytes, EPkt.chunks, hN]
      rfl
    · show nd.det.Knows x
      rw [hdet]
      exact Or.inr ((OMap.has_iff _ _).1 e2)
    · show nd.det.repairs ≠ []
      rw [hdet]
      obtain ⟨q, hq⟩ := List.exists_mem_of_ne_nil _ hheld
      exact List.ne_nil_of_mem ((e3 q).2 hq)
    · show ∀ q ∈ nd.det.repairs, x ∈ q.2.ids
      rw [hdet]
      intro q hq
      rw [e3] at hq
      by_contra hxq
      have hcn := hI.dinv.cnt.two q hq
      obtain ⟨y, hy⟩ : ∃ y, y ∈ q.2.ids := List.exists_mem_of_length_pos (by omega)
      obtain ⟨d1, d2, -⟩ := (hI.dinv.core.rep q hq).2.2.1 y hy
      have hxW := hWi x hx1 hx2
      have hxmis : x ∈ s.dec.det.missing.map (·.1) := (hI.dinv.core.misKeys x).2 ⟨hxW, hx2⟩
      have hyx : y < x := by
        by_contra hc2
        exact hxq (hI.dinv.cnt.seg q hq y hy x hxmis (by omega))
      have hyr : y ∈ r.ids := by
        rw [hids]
        rw [hWl] at d1
        exact hI.enc.f2 i j _ _ _ _ hij hem hjl y d1 x (by rw [← hids]; exact hx1) (by omega)
      have := (hxm y).1 ⟨hyr, d2⟩
      omega

/-- The execution of `C01_false`: repair 1 of the sources 0, 1, 2 is held when repair 0 of source 0 arrives. -/
example (dbg : Bool) : let s := reached (cfg8 dbg) false (corruptActs.take 8)
    s.dec.det.repairs.map (fun q => (q.1, q.2.ids)) = [(1, [0, 1, 2])] ∧ s.dec.det.lastId = some 0 ∧
    [0].filter (fun y => decide (¬ s.dec.det.Knows y)) = [0] := by revert dbg; decide +kernel
example (dbg : Bool) : Reach (cfg8 dbg) false (reached (cfg8 dbg) false (corruptActs.take 8)) :=
  reached_reach (by revert dbg; decide +kernel)
example (dbg : Bool) : let s := anyReached (cfg8 dbg) false (corruptActs.take 9)
    s.dec.det.Knows 0 ∧ s.dec.det.repairs.map (fun q => (q.1, q.2.ids)) = [(1, [0, 1, 2])] := by revert dbg; decide +kernel

/-- **C69, the limit is needed.** After any calls with any packets: a repair that lists a source that is outdated and one that is not
moves the start of the window back.  The outdated source, which the decoder had forgotten, is expected again (`C02_false` and
`C03_false` show what comes of it). -/
theorem C69_false_back {gf : GF w} {dbg : Bool} {clk : Clock} {acts : List DAct} {d d' : NDec}
    {p : List Byte} {r : DRepair} {n : Nat} (h : (NDec.init clk io).after gf dbg clk acts = .ok d)
    (hty : p.head? = some 1#8) (hp : readRepair p = .ok (r, n)) (h' : d.act gf dbg clk (.packet p) = .ok d')
    (hh : r.id ∉ d.det.repairs.keys) (ho : ∃ x ∈ r.ids, ¬ d.det.Outdated x) (x : Nat) (hx : x ∈ r.ids) (hxo : d.det.Outdated x) :
    ¬ d.det.Holds x ∧ x ∉ d.det.missing.keys ∧ ¬ d'.det.Outdated x := by
  refine ⟨fun h1 => C52_nothing_outdated h x (Or.inl h1) hxo, fun h1 => C52_nothing_outdated h x (Or.inr (Or.inl h1)) hxo, ?_⟩
  rw [C52_repair_moves_window h hty hp h' hh ho x]
  intro h1
  exact absurd (h1 x hx) (Nat.lt_irrefl x)

/-- The execution of `C02_false`: repair 0 of the sources 0 and 1 arrives after repair 1 of the sources 1 and 2. -/
example (dbg : Bool) : let s := reached (cfg8 dbg) false (twiceActs.take 10); let s' := anyReached (cfg8 dbg) false twiceActs
    s.dec.det.Outdated 0 ∧ ¬ s.dec.det.Outdated 1 ∧ ¬ s'.dec.det.Outdated 0 ∧ s.dec.data.count (dat 0) = 1 ∧
      s'.dec.data.count (dat 0) = 2 := by revert dbg; decide +kernel

/-- **C69.** The two cases above are all that is left out of the schedules: a repair emitted that may not arrive has been overtaken, is
not held, and either lists both a source that is outdated and one that is not, or starts where the newest one starts and lists
exactly one unknown source, while repairs are held. -/
theorem C69_cases (hc : c.Ok) (h : Reach c io s) (i : Nat) (r : ERepair) (hi : s.enc.out[i]? = some (.repair r))
    (hnot : ¬ s.MayArrive i r) :
    (∃ j ∈ s.hist, s.isRepair j ∧ i < j) ∧ (∀ q ∈ s.dec.det.repairs, q.1 ≠ r.id) ∧
      (((∃ x ∈ r.ids, s.dec.det.Outdated x) ∧ ∃ y ∈ r.ids, ¬ s.dec.det.Outdated y) ∨
       (s.dec.det.lastId = r.ids.head? ∧ s.dec.det.repairs ≠ [] ∧
        ∃ x, r.ids.filter (fun y => decide (¬ s.dec.det.Knows y)) = [x])) := by
  have := fact_of_valid hc.width
  obtain ⟨ems, A, ρ, L, W, K, hI⟩ := inv_of_reach hc h
  unfold Sys.MayArrive Dec.Harmless at hnot
  rw [not_or, not_or, not_or] at hnot
  obtain ⟨h1, h2, h3, h4⟩ := hnot
  have hold : ∃ j ∈ s.hist, s.isRepair j ∧ i < j := by
    by_contra hcon
    refine h1 (fun j g1 g2 => ?_)
    by_contra g3
    exact hcon ⟨j, g1, g2, by omega⟩
  refine ⟨hold, fun q hq he => h3 (by rw [OMap.has_iff, ← he]; exact List.mem_map_of_mem hq), ?_⟩
  obtain ⟨em, hem, hr⟩ := hI.enc.ems_get hi
  cases em with
  | src x => cases hr
  | rep rid Wi =>
    obtain ⟨r', g1, hEnc, hne, hso⟩ := hr
    obtain rfl : r = r' := by injection g1
    have hids : r.ids = Wi := by rw [hEnc.ids, List.map_map]; exact List.map_id Wi
    obtain ⟨j, hj, Wl, hjl, hWl, hhd, hij⟩ : ∃ j ∈ s.hist, ∃ Wl, ems[j]? = some (.rep ρ Wl) ∧ W = {x | x ∈ Wl} ∧
        Wl.head? = some L ∧ i < j := by
      obtain ⟨j0, g1, ⟨r0, g2⟩, g3⟩ := hold
      obtain ⟨em0, g4, g5⟩ := hI.enc.ems_get g2
      have g6 : ∃ rid0 W0, ems[j0]? = some (.rep rid0 W0) := by
        cases em0 with
        | src x => cases g5
        | rep a b => exact ⟨a, b, g4⟩
      obtain ⟨rid0, W0, g6⟩ := g6
      rcases hI.newest with ⟨h1, _⟩ | ⟨j, hj, Wl, h1, h2, h3, h4⟩
      · exact absurd g6 (h1 j0 g1 _ _)
      · exact ⟨j, hj, Wl, h1, h2, h3, by have := h4 j0 g1 _ _ g6; omega⟩
    have hlast : s.dec.det.lastId = some L := by
      rcases hI.dinv.last with ⟨_, _, h3⟩ | h3
      · exfalso
        have : L ∈ W := by rw [hWl]; exact List.mem_of_mem_head? hhd
        rw [h3] at this; cases this
      · exact h3
    obtain ⟨f, hf⟩ : ∃ f, r.ids.head? = some f := by
      cases hl : r.ids with
      | nil => rw [hids] at hl; exact absurd hl hne
      | cons a t => exact ⟨a, rfl⟩
    have hso' : Sorted r.ids := by rw [hids]; exact hso
    by_cases hfl : f < L
    · left
      refine ⟨⟨f, List.mem_of_mem_head? hf, hI.outdated hfl⟩, ?_⟩
      by_contra hcon
      refine h2 ⟨L, hlast, fun x hx => ?_⟩
      by_contra hx2
      exact hcon ⟨x, hx, fun ho => hx2 ((hI.outdated_iff x).1 ho)⟩
    · right
      have hLf : L = f := by
        have : L ∈ Wi := hI.enc.f2 i j _ _ _ _ hij hem hjl L (List.mem_of_mem_head? hhd) f
          (by rw [← hids]; exact List.mem_of_mem_head? hf) (by omega)
        rw [← hids] at this
        have := first_le hso' hf this
        omega
      subst hLf
      have hst : s.dec.det.lastId = r.ids.head? := by rw [hlast, hf]
      rw [not_and, not_or, not_not] at h4
      obtain ⟨k1, k2⟩ := h4 hst
      refine ⟨hst, k1, ?_⟩
      have : r.ids.filter (fun y => decide (¬ s.dec.det.Knows y)) = r.ids.filter (fun y => !s.dec.det.sources.has y) := by
        refine List.filter_congr (fun y hy => ?_)
        have h5 : s.dec.det.Knows y ↔ s.dec.det.sources.has y = true := by
          rw [hI.knows_iff]
          constructor
          · intro h6
            rw [OMap.has_iff, ← OMap.get?_isSome_iff]
            exact ⟨_, (hI.dinv.core.srcGet y _).2 ⟨h6, first_le hso' hf hy, rfl⟩⟩
          · intro h6
            exact hI.dinv.core.src_keys y ((OMap.has_iff _ _).1 h6)
        by_cases h6 : s.dec.det.sources.has y = true <;> simp [h5, h6]
      rw [this]
      exact List.length_eq_one_iff.1 k2

/-- Two repairs arrive in the wrong order, and the second brings both sources that are lost. -/
def demoSwap : List Act :=
  [.setRate 100, .commit (dat 0), .commit (dat 1), .commit (dat 2), .repair, .repair, .deliver 2, .deliver 4, .deliver 3, .deliver 4]
example : let s := reached (cfg8 true) true demoSwap
    s.hist = [2, 4, 3, 4] ∧ s.dec.data = [dat 0, dat 1, dat 2] ∧ s.dec.det.repairs = [] := by decide +kernel
example : Reach (cfg8 true) true (reached (cfg8 true) true demoSwap) := reached_reach (by decide +kernel)

end Netcode
