import Verif.Proofs.Clash
import Verif.Props.System
import Verif.Props.Defects

/-!
# C68: what a source that arrives too late does, and that the limit on late sources is the exact one

Without ordering.
-/

set_option linter.unusedSectionVars false

namespace Netcode

variable {w : Nat} {c : Cfg w} {io : Bool} {s : Sys}

theorem notify_source_error (gf : GF w) (dbg : Bool) (clk : Clock) (d : NDec) (sr : ESource) (hi : sr.id < 2 ^ 32)
    (hl : sr.sym.length < 2 ^ 16) (e : Fault) (h : d.det.onSource gf dbg ⟨sr.id, sr.sym⟩ = .error e) :
    d.notify gf dbg clk (writeSource sr).flatten = .error e := by
  unfold NDec.notify
  rw [cassert_true _ (by simp [writeSource, beBytes])]
  simp only [bind, Except.bind, getPacketType_source, readSource_writeSource sr hi hl, h]

/-- **C68.** The arrival of a source is in time exactly when it is no clash. -/
theorem C68_in_time_iff (hc : c.Ok) (h : Reach c false s) {i : Nat} {sr : ESource}
    (hi : s.enc.out[i]? = some (.source sr)) : Allowed c s (.deliver i) ↔ s.dec.det.NoClash c.gf sr.id := by
  have := fact_of_valid hc.width
  obtain ⟨ems, A, ρ, L, W, K, hI⟩ := inv_of_reach hc h
  simp only [Allowed, hi]
  constructor
  · intro ht
    obtain ⟨em, hem, hr⟩ := hI.enc.ems_get hi
    cases em with
    | rep rid W' => obtain ⟨r, h1, _⟩ := hr; cases h1
    | src x =>
      have hsr : sr = srcOf (comData s) x := by injection hr
      subst hsr
      show s.dec.det.NoClash c.gf x
      have hno : (x ∈ K ∨ x < L ∨ x ∉ W) → s.dec.det.NoClash c.gf x := by
        intro hx
        refine Or.inl fun q hq q' hq' h1 _ _ => ?_
        obtain ⟨k1, k2, -⟩ := (hI.dinv.core.rep q hq).2.2.1 x h1
        have := hI.dinv.core.lo x k1
        rcases hx with hx | hx | hx
        · exact absurd hx k2
        · omega
        · exact absurd k1 hx
      rcases hI.inTime hem ht with hx | hx | hx | ⟨-, hx⟩
      · exact hno (Or.inl hx)
      · exact hno (Or.inr (Or.inl hx))
      · exact hno (Or.inr (Or.inr hx))
      · exact hx
  · intro hx
    refine Or.inr (Or.inr ⟨hI.io, Or.inr fun sr' hsr' => ?_⟩)
    rw [hi] at hsr'
    cases hsr'
    exact hx

/-- **C68.** After the arrival of a source that is a clash, the decoder lacks a source `y` although a repair arrived that lists `y`
and otherwise only sources that the decoder knows.  In a debug build the arrival of `y` then fails an assertion. -/
theorem C68_clash (hc : c.Ok) (h : Reach c false s) {i : Nat} {sr : ESource} (hi : s.enc.out[i]? = some (.source sr))
    (hn : ¬ s.dec.det.NoClash c.gf sr.id) :
    ∃ s', s.step c (.deliver i) = .ok s' ∧ s'.dec.det.Knows sr.id ∧
      ∃ j ∈ s.hist, ∃ r, s.enc.out[j]? = some (.repair r) ∧ ∃ y ∈ r.ids,
        ¬ s'.dec.det.Knows y ∧ ¬ s'.dec.det.Outdated y ∧ (∀ z ∈ r.ids, z ≠ y → s'.dec.det.Knows z) ∧
        (c.dbg = true → ∀ k sy, s.enc.out[k]? = some (.source sy) → sy.id = y → s'.step c (.deliver k) = .error .assertion) := by
  have := fact_of_valid hc.width
  obtain ⟨ems, A, ρ, L, W, K, hI⟩ := inv_of_reach hc h
  obtain ⟨em, hem, hr⟩ := hI.enc.ems_get hi
  cases em with
  | rep rid W' => obtain ⟨r, h1, _⟩ := hr; cases h1
  | src x =>
    have hsr : sr = srcOf (comData s) x := by injection hr
    subst hsr
    have hxn : x < s.committed.length := hI.enc.emLt _ (List.mem_of_getElem? hem) x (by simp [Em.ids])
    have hcur := hI.curLt
    obtain ⟨det', rid, r, u, y, e1, e2, e3, e4, e5, e6, e7⟩ := onSource_clash c.dbg hc.width hI.dinv hI.io x hn
    have hext := onSource_ext e1
    have hN := notify_source c.gf c.dbg c.clk s.dec (srcOf (comData s) x) (by show x < 2 ^ 32; omega)
      (hI.enc.dataOk x hxn).2.1 det' e1
    have hack : AckInv (insert x K) ({ s.dec with nbSources := s.dec.nbSources + 1, ackPackets := (s.dec.ackPackets + 1) % 2 ^ 16 } : NDec) :=
      (hI.acks.mono (Set.subset_insert _ _)).congr rfl (Nat.mod_lt _ (by decide)) rfl
    obtain ⟨a1, a2, a3⟩ := afterDet_ok c.clk _ det' hack hext.log e3.held hI.dataLog
    generalize hnd : NDec.afterDet c.clk { s.dec with nbSources := s.dec.nbSources + 1, ackPackets := (s.dec.ackPackets + 1) % 2 ^ 16 } det' = nd at *
    have hkn : ∀ z, nd.det.Knows z ↔ z ∈ insert x K := by
      intro z
      rw [a2]
      constructor
      · rintro (hz | hz)
        · exact ((e3.unord e5).2.1 z).1 hz
        · exact e2.src_keys z hz
      · exact fun hz => Or.inl (((e3.unord e5).2.1 z).2 hz)
    have hlast : ∀ l, det'.lastId = some l → l = L := by
      intro l hl
      rw [e4] at hl
      rcases hI.dinv.last with ⟨h1, _, _⟩ | h1
      · rw [h1] at hl; cases hl
      · rw [h1] at hl; exact (Option.some.inj hl).symm
    have hq : (rid, r) ∈ det'.repairs := by rw [e6]; simp
    have hyr : y ∈ r.ids := by rw [e7]; simp
    obtain ⟨hyW, hyK, j, hj, Wj, hem2, hyj⟩ := (e2.rep _ hq).2.2.1 y hyr
    obtain ⟨rr, hrr⟩ := hI.enc.isRep hem2
    obtain ⟨r2, g1, g2, -, -⟩ := hI.enc.rend j _ _ hem2 hrr
    injection g1 with g1
    subst g1
    have hids : rr.ids = Wj := by rw [g2.ids, List.map_map]; exact List.map_id Wj
    refine ⟨{ s with dec := nd, hist := s.hist ++ [i], errs := s.errs + 0 }, ?_, (hkn x).2 (Set.mem_insert _ _), j, hj, rr, hrr, y,
      by rw [hids]; exact hyj, fun hk => hyK ((hkn y).1 hk), ?_, ?_, ?_⟩
    · simp only [Sys.step]
      rw [hi]
      simp only [EPkt.bytes, EPkt.chunks, hN]
      rfl
    · rintro ⟨l, hl, hlt⟩
      replace hl : nd.det.lastId = some l := hl
      rw [a2] at hl
      have := hlast l hl
      have := e2.lo y hyW
      omega
    · intro z hz hzy
      rw [hids] at hz
      refine (hkn z).2 (Classical.byContradiction fun hzK => hzy ?_)
      have := e2.full _ hq z ⟨j, hj, Wj, hem2, hz⟩ hzK
      rw [e7] at this
      simpa using this
    · intro hdbg k sy hk hsy
      obtain ⟨em3, hem3, hr3⟩ := hI.enc.ems_get hk
      cases em3 with
      | rep rid W' => obtain ⟨r, h1, _⟩ := hr3; cases h1
      | src y' =>
        have hsr : sy = srcOf (comData s) y' := by injection hr3
        subst hsr
        obtain rfl : y' = y := hsy
        have hyn : y' < s.committed.length := hI.enc.emLt _ (List.mem_of_getElem? hem3) y' (by simp [Em.ids])
        have hon := onSource_single e2 hlast e5 e6 e7
        have hN2 := notify_source_error c.gf true c.clk nd (srcOf (comData s) y') (by show y' < 2 ^ 32; omega)
          (hI.enc.dataOk y' hyn).2.1 _ (by rw [a2]; exact hon)
        simp only [Sys.step]
        rw [hk]
        simp only [EPkt.bytes, EPkt.chunks, hdbg, hN2]
        rfl

/-- Source 1 is a clash: the repairs {0,1} and {0,1,2,3} are held. -/
example : let s := reached (cfg8 true) false (assertActs.take 7)
    s.dec.det.repairs.map (fun q => q.2.ids) = [[0, 1], [0, 1, 2, 3]] := by decide +kernel
example : Reach (cfg8 true) false (reached (cfg8 true) false (assertActs.take 7)) := reached_reach (by decide +kernel)
example : ¬ (reached (cfg8 true) false (assertActs.take 7)).dec.det.NoClash (cfg8 true).gf 1 := by
  have h : (reached (cfg8 true) false (assertActs.take 7)).dec.det.missing.length = 4 := by decide +kernel
  have h' : (reached (cfg8 true) false (assertActs.take 7)).dec.det.repairs.length = 2 := by decide +kernel
  rintro (h1 | ⟨h1, -⟩)
  · revert h1; decide +kernel
  · omega

/-- Sources 2 and 3 are overtaken by two repairs, and this is no clash. -/
def demoOver : List Act :=
  [.setRate 2, .commit (dat 0), .commit (dat 1), .commit (dat 2), .commit (dat 3), .commit (dat 4), .commit (dat 5),
   .deliver 5, .deliver 8, .deliver 3, .deliver 4, .deliver 6, .deliver 7]
example : let s := reached (cfg8 true) false demoOver
    s.hist = [5, 8, 3, 4, 6, 7] ∧ s.dec.det.repairs.length = 0 ∧ ∀ x < 6, s.dec.det.Knows x := by decide +kernel
example : Reach (cfg8 true) false (reached (cfg8 true) false demoOver) := reached_reach (by decide +kernel)

end Netcode
