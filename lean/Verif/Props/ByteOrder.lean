import Verif.Model.ByteOrderDec
import Verif.Props.Decoder
import Verif.Proofs.SwapList
import Verif.Proofs.SwapSys
import Verif.Proofs.SwapSrc
import Verif.Spec.Lossless
import Verif.Props.System
import Verif.Proofs.GFConcrete

/-! # Machines of different byte orders (C99) -/

namespace Netcode

variable {w : Nat}

theorem gfMultiplyBE_small (hw : w ≤ 8) : @gfMultiplyBE w = gfMultiply := by
  funext gf src len c
  simp only [gfMultiplyBE, gfMultiply, mulRegionBE_small hw]

theorem gfMultiplyAddBE_small (hw : w ≤ 8) : @gfMultiplyAddBE w = gfMultiplyAdd := by
  funext gf src dst len c
  simp only [gfMultiplyAddBE, gfMultiplyAdd, mulRegionBE_small hw]

theorem encodeRepairBE_small (hw : w = 4 ∨ w = 8) : @encodeRepairBE w = encodeRepair := by
  have h8 : w ≤ 8 := by omega
  have e : @encodeStepBE w = encodeStep := by
    funext gf r s
    simp only [encodeStepBE, encodeStep, gfMultiplyAddBE_small h8, mulSizeBE_small hw]
  funext gf dbg id sources
  cases sources <;> simp only [encodeRepairBE, encodeRepair, gfMultiplyBE_small h8, mulSizeBE_small hw, e]

theorem stepBE_small (hw : w = 4 ∨ w = 8) : @Sys.stepBE w = Sys.step := by
  have e1 : @Enc.generateRepairBE w = Enc.generateRepair := by
    funext gf dbg e
    simp only [Enc.generateRepairBE, Enc.generateRepair, encodeRepairBE_small hw]
  have e2 : @Enc.commitBE w = Enc.commit := by
    funext gf dbg e d
    simp only [Enc.commitBE, Enc.commit, Enc.emitNewBE, Enc.emitNew, Enc.autoRepairBE, Enc.autoRepair, e1]
  funext c s a
  cases a <;> simp only [Sys.stepBE, Sys.step, e1, e2]

/-- **C99.** With fields of 4 and 8 bits all that is computed on regions and sizes is the same on machines of both byte orders ... -/
theorem C99_field_partial (hw : w = 4 ∨ w = 8) (gf : GF w) (c : BitVec w) :
    (∀ src len, gfMultiplyBE gf src len c = gfMultiply gf src len c) ∧
    (∀ src dst len, gfMultiplyAddBE gf src dst len c = gfMultiplyAdd gf src dst len c) ∧
    ∀ size, mulSizeBE gf size c = mulSize gf size c := by
  have h8 : w ≤ 8 := by omega
  rw [gfMultiplyBE_small h8, gfMultiplyAddBE_small h8, mulSizeBE_small hw]
  exact ⟨fun _ _ => rfl, fun _ _ _ => rfl, fun _ => rfl⟩

theorem addSourceBE_small (hw : w = 4 ∨ w = 8) (gf : GF w) (dbg : Bool) : ∀ fuel,
    addSourceBE gf dbg fuel = addSource gf dbg fuel ∧ scanMissingBE gf dbg fuel = scanMissing gf dbg fuel := by
  have h8 : w ≤ 8 := by omega
  have e1 : @createSourceBE w = createSource := by
    funext gf dbg r
    simp only [createSourceBE, createSource, gfMultiplyBE_small h8, mulSizeBE_small hw]
    rfl
  have e3 : ∀ src l s, removeFromAllBE gf dbg src l s = removeFromAll gf dbg src l s := by
    intro src l
    induction l with
    | nil => exact fun s => rfl
    | cons rid t ih =>
      intro s
      simp only [removeFromAllBE, removeFromAll, removeFromRepairBE, removeFromRepair, removeDataBE, removeData, gfMultiplyAddBE_small h8,
        mulSizeBE_small hw, ih]
      rfl
  have e4 : addSourceHeadBE gf dbg = addSourceHead gf dbg := by
    funext src s
    simp only [addSourceHeadBE, addSourceHead, e3]
    rfl
  intro fuel
  induction fuel with
  | zero =>
    refine ⟨by funext src s; simp only [addSourceBE, addSource], ?_⟩
    funext k s
    cases k <;> simp only [scanMissingBE, scanMissing]
  | succ n ih =>
    refine ⟨by funext src s; simp only [addSourceBE, addSource, e4, ih.2], ?_⟩
    funext k s
    cases k with
    | none => simp only [scanMissingBE, scanMissing]
    | some k =>
      simp only [scanMissingBE, scanMissing, e1, ih.1, ih.2]
      rfl

theorem fullDecodeBE_small (hw : w = 4 ∨ w = 8) (gf : GF w) (dbg : Bool) (s : Dec) : s.fullDecodeBE gf dbg = s.fullDecode gf dbg := by
  have h8 : w ≤ 8 := by omega
  have e1 : ∀ inv col srcSz l b sym, decodeSymBE gf inv col srcSz l b sym = decodeSym gf inv col srcSz l b sym := by
    intro inv col srcSz l
    induction l with
    | nil => exact fun b sym => rfl
    | cons x t ih =>
      intro b sym
      obtain ⟨r, row⟩ := x
      simp only [decodeSymBE, decodeSym, gfMultiplyBE_small h8, gfMultiplyAddBE_small h8, ih]
  have e2 : ∀ inv reps col xs s, decodeLoopBE gf dbg inv reps col xs s = decodeLoop gf dbg inv reps col xs s := by
    intro inv reps col xs
    induction xs generalizing col with
    | nil => exact fun s => rfl
    | cons x t ih =>
      intro s
      simp only [decodeLoopBE, decodeLoop, decodeOneBE, decodeOne, decodeSizeBE, decodeSize, e1, mulSizeBE_small hw, ih]
  simp only [Dec.fullDecodeBE, Dec.fullDecode, e2]
  rfl

theorem notifyBE_small (hw : w = 4 ∨ w = 8) : @NDec.notifyBE w = NDec.notify := by
  have h8 : w ≤ 8 := by omega
  have e1 : @createSourceBE w = createSource := by
    funext gf dbg r
    simp only [createSourceBE, createSource, gfMultiplyBE_small h8, mulSizeBE_small hw]
    rfl
  have e2 : @linkStepBE w = linkStep := by
    funext gf dbg sources st x
    simp only [linkStepBE, linkStep, removeDataBE, removeData, gfMultiplyAddBE_small h8, mulSizeBE_small hw]
    rfl
  have e3 : @Dec.onSourceBE w = Dec.onSource := by
    funext gf dbg s src
    simp only [Dec.onSourceBE, Dec.onSource, (addSourceBE_small hw gf dbg _).1, fullDecodeBE_small hw]
  have e4 : @Dec.onRepairBE w = Dec.onRepair := by
    funext gf dbg s r
    simp only [Dec.onRepairBE, Dec.onRepair, e1, e2, (addSourceBE_small hw gf dbg _).1, fullDecodeBE_small hw]
    rfl
  funext gf dbg clk d p
  simp only [NDec.notifyBE, NDec.notify, e3, e4]
  rfl

/-- **C99.** ... so an encoder and a decoder, each on a machine of either byte order, go, whatever the calls and the network, through the
same states. -/
theorem C99_same_partial (hw : w = 4 ∨ w = 8) (eb db : Bool) (c : Cfg w) (s : Sys) (acts : List Act) : s.runOrd eb db c acts = s.run c acts := by
  have e : Sys.stepOrd eb db c = Sys.step c := by
    funext s a
    cases a <;> simp only [Sys.stepOrd, stepBE_small hw, ite_self, notifyBE_small hw]
    case deliver i =>
      cases db
      · rfl
      · rfl
  unfold Sys.runOrd Sys.run
  rw [e]

/-- A loss, and the repair brings the datum to the decoder. -/
example (dbg io eb db : Bool) :
    ((Sys.init (cfg8 dbg).clk io).runOrd eb db (cfg8 dbg) [.commit [129, 130], .commit [131, 132], .repair, .deliver 0, .deliver 2]).toOption.map
      (fun s => (s.committed, s.dec.data, s.errs)) = some ([[129, 130], [131, 132]], [[129, 130], [131, 132]], 0) := by
  revert dbg io eb db; decide +kernel

/-- GF(2^16), exact arithmetic, a clock that does not advance. -/
def cfg16 (dbg : Bool) : Cfg 16 := ⟨gf16, F0, dbg, fun _ => 0⟩

/-- **C99 fails** with a field of 16 bits, whichever of the two is on the machine of the other byte order: the decoder hands over a datum that was
never committed, without any error ... -/
theorem C99_false (dbg io eb : Bool) :
    ((Sys.init (cfg16 dbg).clk io).runOrd eb (!eb) (cfg16 dbg) [.commit [129, 130], .commit [131, 132], .repair, .deliver 0, .deliver 2]).toOption.map
      (fun s => (s.committed, s.dec.data, s.errs)) = some ([[129, 130], [131, 132]], [[129, 130], if eb then [13, 7] else [0, 10]], 0) := by
  revert dbg io eb; decide +kernel

/-- ... and with one of 32 bits ... -/
theorem C99_false_w32 (dbg io eb : Bool) :
    ((Sys.init (cfg32 dbg).clk io).runOrd eb (!eb) (cfg32 dbg)
      [.commit [129, 130, 131, 132], .commit [133, 134, 135, 136], .repair, .repair, .deliver 0, .deliver 3]).toOption.map
      (fun s => (s.committed, s.dec.data, s.errs)) =
    some ([[129, 130, 131, 132], [133, 134, 135, 136]], [[129, 130, 131, 132], if eb then [132, 158, 215, 42] else [39, 214, 159, 137]], 0) := by
  revert dbg io eb; decide +kernel

/-- ... where two machines of the same byte order, be it the one or the other, understand each other. -/
example (dbg io b : Bool) :
    ((Sys.init (cfg16 dbg).clk io).runOrd b b (cfg16 dbg) [.commit [129, 130], .commit [131, 132], .repair, .deliver 0, .deliver 2]).toOption.map
      (fun s => (s.committed, s.dec.data, s.errs)) = some ([[129, 130], [131, 132]], [[129, 130], [131, 132]], 0) := by
  revert dbg io b; decide +kernel

/-! ## Both machines of the other byte order, with every field -/

section
variable {c : Cfg w} {io : Bool} {s : Sys}

/-- The two runs, next to each other. -/
theorem pair_of_big (hc : c.Ok) (h : ReachOrd true true c io s) : ∃ t, Reach c io t ∧ OrdPair c io s t := by
  have := fact_of_valid hc.width
  induction h with
  | init => exact ⟨_, .init, pair_init c io⟩
  | @step s s' a hr ha hst ih =>
    obtain ⟨t, h1, h2⟩ := ih
    obtain ⟨k1, s2, t', k2, k3, k4⟩ := pair_step hc h2 ha
    rw [hst] at k2
    cases k2
    exact ⟨t', .step h1 k1 k3, k4⟩

/-- **C99.** When both peers are on machines of the other byte order, whatever the field, they do what peers on little-endian machines do with
data in which the bytes of all words are reversed ... -/
theorem C99_big_partial (hc : c.Ok) (h : ReachOrd true true c io s) : ∃ t, Reach c io t ∧ Mirror w s t := by
  have := fact_of_valid hc.width
  obtain ⟨t, h1, h2⟩ := pair_of_big hc h
  exact ⟨t, h1, h2.mirror⟩

/-- ... and all that the latter do ... -/
theorem C99_big_all_partial (hc : c.Ok) {t : Sys} (h : Reach c io t) : ∃ s, ReachOrd true true c io s ∧ Mirror w s t := by
  have := fact_of_valid hc.width
  suffices ∃ s, ReachOrd true true c io s ∧ OrdPair c io s t by
    obtain ⟨s, h1, h2⟩ := this
    exact ⟨s, h1, h2.mirror⟩
  induction h with
  | init => exact ⟨_, .init, pair_init c io⟩
  | @step t t' a hr ha hst ih =>
    obtain ⟨s, h1, h2⟩ := ih
    have hs := pair_allowed h2 ha
    obtain ⟨_, s', t2, k2, k3, k4⟩ := pair_step hc h2 hs
    rw [Act.sw_sw, hst] at k3
    cases k3
    exact ⟨s', .step h1 hs k2, k4⟩

/-- ... no allowed call fails there ... -/
theorem C99_big_safe_partial (hc : c.Ok) (h : ReachOrd true true c io s) {a : Act} (ha : Allowed c s a) :
    ∃ s', s.stepOrd true true c a = .ok s' := by
  have := fact_of_valid hc.width
  obtain ⟨t, _, h2⟩ := pair_of_big hc h
  obtain ⟨_, s', _, k, _⟩ := pair_step hc h2 ha
  exact ⟨s', k⟩

/-- ... what is handed over was committed, no more often than it was committed, and in the order of the commits if this was asked for. -/
theorem C99_big_integrity_partial (hc : c.Ok) (h : ReachOrd true true c io s) :
    (∀ d ∈ s.dec.data, d ∈ s.committed) ∧ (∀ d, s.dec.data.count d ≤ s.committed.count d) ∧ (io = true → s.dec.data.Sublist s.committed) := by
  obtain ⟨t, h1, hm⟩ := C99_big_partial hc h
  rw [hm.given, hm.committed]
  have hinj : Function.Injective (swapped w) := fun a b e => by rw [← swapped_swapped (w := w) a, e, swapped_swapped]
  refine ⟨fun d hd => ?_, fun d => ?_, ?_⟩
  · obtain ⟨x, hx, rfl⟩ := List.mem_map.1 hd
    exact List.mem_map_of_mem (C01_integrity_partial hc h1 x hx)
  · rw [← swapped_swapped (w := w) d, List.count_map_of_injective _ _ hinj, List.count_map_of_injective _ _ hinj]
    exact C02_at_most_once_partial hc h1 _
  · rintro rfl
    exact (C03_in_order_partial hc h1).map _

end

/-- Both machines of the other byte order, a field of 16 bits, one source lost. -/
example (dbg io : Bool) : ∃ s, ReachOrd true true (cfg16 dbg) io s ∧ s.committed = [[129, 130], [131, 132]] ∧ s.dec.data = [[129, 130], [131, 132]] := by
  have h : Reach (cfg16 dbg) io (reached (cfg16 dbg) io [.commit [130, 129], .commit [132, 131], .repair, .deliver 0, .deliver 2]) :=
    reached_reach (by revert dbg io; decide +kernel)
  obtain ⟨s, h1, h2⟩ := C99_big_all_partial ⟨.inr (.inr (.inl rfl)), F0_ok⟩ h
  refine ⟨s, h1, h2.committed.trans ?_, h2.given.trans ?_⟩
  · clear h h1 h2; revert dbg io; decide +kernel
  · clear h h1 h2; revert dbg io; decide +kernel

/-! ## As long as only sources have arrived -/

/-- **C99.** Whatever the field and the machines, as long as only sources have arrived, all is as on two little-endian machines, except for the
symbols of the repairs that are on their way. -/
theorem C99_sources_partial (hw : ValidW w) {c : Cfg w} {io eb db : Bool} {acts : List Act} {t : Sys}
    (h : (Sys.init c.clk io).run c acts = .ok t) (hs : ∀ i ∈ t.hist, ∃ r, t.enc.out[i]? = some (EPkt.source r)) :
    ∃ s : Sys, (Sys.init c.clk io).runOrd eb db c acts = .ok s ∧ s = { t with enc := { t.enc with out := s.enc.out } } ∧
      s.enc.out.length = t.enc.out.length ∧
      (∀ (i : Nat) (r : ESource), t.enc.out[i]? = some (EPkt.source r) → s.enc.out[i]? = some (EPkt.source r)) ∧
      ∀ (i : Nat) (r : ERepair), t.enc.out[i]? = some (EPkt.repair r) → ∃ x, s.enc.out[i]? = some (EPkt.repair { r with sym := x }) ∧ x.length = r.sym.length := by
  obtain ⟨s, h1, h2⟩ := srcPair_run hw (eb := eb) (db := db) (srcPair_init c.clk io) h hs
  refine ⟨s, h1, ?_, alike_length h2.enc, fun i r hi => alike_source h2.enc hi, fun i r hi => alike_repair h2.enc hi⟩
  obtain ⟨o, ho, _⟩ := h2.enc
  rw [ho]
  exact h2.same.trans (by rw [ho])

/-- The first of two sources is lost, and the repair is still on its way: its symbol depends on the machine. -/
example (dbg io db : Bool) :
    ((Sys.init (cfg16 dbg).clk io).run (cfg16 dbg) [.commit [129, 130], .commit [131, 132], .repair, .deliver 1, .genAck, .ack 0]).toOption.map
      (fun t => (t.hist.map (fun i => (t.enc.out[i]?).elim false EPkt.isSource), t.dec.data, t.enc.sources.map (·.id))) =
      some ([true], if io then [] else [[131, 132]], [0]) ∧
    ((Sys.init (cfg16 dbg).clk io).runOrd true db (cfg16 dbg) [.commit [129, 130], .commit [131, 132], .repair, .deliver 1, .genAck, .ack 0]).toOption.map
      (fun s => s.enc.out.map EPkt.bytes) ≠
    ((Sys.init (cfg16 dbg).clk io).run (cfg16 dbg) [.commit [129, 130], .commit [131, 132], .repair, .deliver 1, .genAck, .ack 0]).toOption.map
      (fun s => s.enc.out.map EPkt.bytes) := by
  constructor
  · revert dbg io; decide +kernel
  · revert dbg io db; decide +kernel

end Netcode
