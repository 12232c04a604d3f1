import Verif.Proofs.SwapSys
import Verif.Proofs.Hostile
import Verif.Proofs.Line

/-!
# Machines of different byte orders, when only sources arrive
-/

set_option linter.unusedSectionVars false

namespace Netcode

variable {w : Nat}

/-! ## The encoder: only the symbols of repairs differ -/

/-- Repairs that differ in nothing but the bytes of their symbols. -/
structure RAlike (r r' : ERepair) : Prop where
  id : r'.id = r.id
  ids : r'.ids = r.ids
  enc : r'.encSize = r.encSize
  len : r'.sym.length = r.sym.length

/-- Packets that differ in nothing but the bytes of the symbols of repairs. -/
def PAlike : EPkt → EPkt → Prop
  | .source s, p => p = .source s
  | .repair r, p => ∃ r', p = .repair r' ∧ RAlike r r'

/-- Encoders that differ in nothing but the bytes of the symbols of repairs they have sent. -/
def EAlike (e e' : Enc) : Prop := ∃ o, e' = { e with out := o } ∧ List.Forall₂ PAlike e.out o

section
variable {gf : GF w} {dbg : Bool} (hw : ValidW w)
include hw

theorem mulRegionBE_length (c : BitVec w) (l : List Byte) : (mulRegionBE gf c l).length = (mulRegion gf c l).length := by
  unfold mulRegionBE
  rw [swapped_length, mulRegion_length, mulRegion_length, swapped_length]

theorem encodeStep_alike {r r1 r' : ERepair} {s : ESource} (hr : RAlike r r1) (h : encodeStep gf r s = .ok r') :
    ∃ r2, encodeStepBE gf r1 s = .ok r2 ∧ RAlike r' r2 := by
  unfold encodeStep at h
  unfold encodeStepBE
  rw [mulSizeBE_eq hw, hr.len, hr.id]
  simp only [bind_ok_iff] at h ⊢
  obtain ⟨sym, h1, h⟩ := h
  cases h
  obtain ⟨i1, i2, i3, rfl⟩ := gfMultiplyAdd_inv h1
  generalize hsym : (if s.size > r.sym.length then r.sym ++ List.replicate (s.size - r.sym.length) 0#8 else r.sym) = sym at *
  have hl : (if s.size > r.sym.length then r1.sym ++ List.replicate (s.size - r.sym.length) 0#8 else r1.sym).length = sym.length := by
    rw [← hsym]
    split
    · rw [List.length_append, List.length_append, hr.len]
    · exact hr.len
  generalize (if s.size > r.sym.length then r1.sym ++ List.replicate (s.size - r.sym.length) 0#8 else r1.sym) = sym1 at *
  refine ⟨_, ⟨xorPrefix sym1 (mulRegionBE gf (coefficient w r.id s.id) (s.sym.take s.size)), ?_, rfl⟩, rfl, ?_, ?_, ?_⟩
  · unfold gfMultiplyAddBE
    simp only [ensure, hl, i1, i2, i3, decide_true, beq_self_eq_true, if_true]
    rfl
  · show setInsert r1.ids s.id = _
    rw [hr.ids]
  · show mulSize gf _ _ ^^^ r1.encSize = _
    rw [hr.enc]
  · show (xorPrefix _ _).length = (xorPrefix _ _).length
    rw [xorPrefix_length, xorPrefix_length, hl]

theorem encodeRepair_alike {id : Nat} {l : List ESource} {r : ERepair} (h : encodeRepair gf dbg id l = .ok r) :
    ∃ r', encodeRepairBE gf dbg id l = .ok r' ∧ RAlike r r' := by
  cases l with
  | nil => unfold encodeRepair at h; cases dbg <;> cases h
  | cons s t =>
    unfold encodeRepair at h
    unfold encodeRepairBE
    simp only [bind_ok_iff] at h ⊢
    rw [mulSizeBE_eq hw]
    obtain ⟨sym, h1, h⟩ := h
    obtain ⟨i1, i3, rfl⟩ := gfMultiply_inv h1
    have key : ∀ (t : List ESource) (a b : ERepair), RAlike a b → t.foldlM (encodeStep gf) a = .ok r →
        ∃ r', t.foldlM (encodeStepBE gf) b = .ok r' ∧ RAlike r r' := by
      intro t
      induction t with
      | nil => intro a b hab h; cases h; exact ⟨b, rfl, hab⟩
      | cons x t ih =>
        intro a b hab h
        rw [List.foldlM_cons, bind_ok_iff] at h
        obtain ⟨y, h1, h⟩ := h
        obtain ⟨z, g1, g2⟩ := encodeStep_alike hw hab h1
        obtain ⟨r', g3, g4⟩ := ih y z g2 h
        exact ⟨r', by rw [List.foldlM_cons, bind_ok_iff]; exact ⟨z, g1, g3⟩, g4⟩
    have hk : RAlike ⟨id, [s.id], mulSize gf (BitVec.ofNat 16 s.size) (coefficient w id s.id), mulRegion gf (coefficient w id s.id) (s.sym.take s.size)⟩
        ⟨id, [s.id], mulSize gf (BitVec.ofNat 16 s.size) (coefficient w id s.id), mulRegionBE gf (coefficient w id s.id) (s.sym.take s.size)⟩ :=
      ⟨rfl, rfl, rfl, mulRegionBE_length hw _ _⟩
    obtain ⟨r', k1, k2⟩ := key t _ _ hk h
    refine ⟨r', ⟨_, ?_, k1⟩, k2⟩
    unfold gfMultiplyBE
    simp only [ensure, i1, i3, decide_true, beq_self_eq_true, if_true]
    rfl

theorem generateRepair_alike {e e1 e' : Enc} (ha : EAlike e e1) (h : e.generateRepair gf dbg = .ok e') :
    ∃ e2, e1.generateRepairBE gf dbg = .ok e2 ∧ EAlike e' e2 := by
  obtain ⟨o, rfl, ho⟩ := ha
  unfold Enc.generateRepair at h
  unfold Enc.generateRepairBE
  simp only [bind_ok_iff] at h ⊢
  obtain ⟨r, h1, _, h2, h⟩ := h
  cases h
  obtain ⟨r', k1, k2⟩ := encodeRepair_alike hw h1
  refine ⟨_, ⟨r', k1, (), ?_, rfl⟩, o ++ [.repair r'], rfl, ?_⟩
  · rw [k2.len]; exact h2
  · exact List.rel_append ho (List.Forall₂.cons ⟨r', rfl, k2⟩ .nil)

omit hw in
theorem generateRepair_alikeLE {e e1 e' : Enc} (ha : EAlike e e1) (h : e.generateRepair gf dbg = .ok e') :
    ∃ e2, e1.generateRepair gf dbg = .ok e2 ∧ EAlike e' e2 := by
  obtain ⟨o, rfl, ho⟩ := ha
  unfold Enc.generateRepair at h ⊢
  simp only [bind_ok_iff] at h ⊢
  obtain ⟨r, h1, _, h2, h⟩ := h
  cases h
  refine ⟨_, ⟨r, h1, (), h2, rfl⟩, o ++ [.repair r], rfl, ?_⟩
  exact List.rel_append ho (List.Forall₂.cons ⟨r, rfl, rfl, rfl, rfl, rfl⟩ .nil)

theorem commit_alike {e e1 e' : Enc} {d : List Byte} (ha : EAlike e e1) (h : e.commit gf dbg d = .ok e') :
    ∃ e2, e1.commitBE gf dbg d = .ok e2 ∧ EAlike e' e2 := by
  obtain ⟨o, rfl, ho⟩ := ha
  unfold Enc.commit at h
  unfold Enc.commitBE
  simp only [bind_ok_iff] at h ⊢
  obtain ⟨_, h1, _, h2, _, h3, _, h4, ea, h5, eb, h6, h⟩ := h
  cases h
  have k1 : ∃ ea', Enc.emitNewBE gf dbg ({ id := e.curSrc, sym := d } : ESource)
      { ({ e with out := o } : Enc) with sources := (if e.sources.length = e.windowSize then e.sources.tail else e.sources) ++ [({ id := e.curSrc, sym := d } : ESource)] } =
      .ok ea' ∧ EAlike ea ea' := by
    unfold Enc.emitNew at h5
    unfold Enc.emitNewBE
    simp only at h5 ⊢
    split at h5
    · rename_i hc
      cases h5
      rw [if_pos hc]
      exact ⟨_, rfl, _, rfl, List.rel_append ho (List.Forall₂.cons rfl .nil)⟩
    · rename_i hc
      rw [if_neg hc]
      have hE : EAlike { e with sources := (if e.sources.length = e.windowSize then e.sources.tail else e.sources) ++ [({ id := e.curSrc, sym := d } : ESource)] }
          { e with sources := (if e.sources.length = e.windowSize then e.sources.tail else e.sources) ++ [({ id := e.curSrc, sym := d } : ESource)], out := o } :=
        ⟨o, rfl, ho⟩
      exact generateRepair_alike hw hE h5
  obtain ⟨ea', k1, k2⟩ := k1
  have k3 : ∃ eb', ea'.autoRepairBE gf dbg = .ok eb' ∧ EAlike eb eb' := by
    obtain ⟨o', rfl, ho'⟩ := k2
    unfold Enc.autoRepair at h6
    unfold Enc.autoRepairBE
    simp only [bind_ok_iff] at h6 ⊢
    obtain ⟨_, a1, h6⟩ := h6
    split at h6
    · rename_i hc
      obtain ⟨x, x1, x2⟩ := generateRepair_alike hw ⟨o', rfl, ho'⟩ h6
      exact ⟨x, ⟨(), a1, by rw [if_pos hc]; exact x1⟩, x2⟩
    · rename_i hc
      cases h6
      exact ⟨_, ⟨(), a1, by rw [if_neg hc]⟩, o', rfl, ho'⟩
  obtain ⟨eb', k3, o', rfl, ho'⟩ := k3
  exact ⟨_, ⟨(), h1, (), h2, (), h3, (), h4, ea', k1, _, k3, rfl⟩, o', rfl, ho'⟩

omit hw in
theorem commit_alikeLE {e e1 e' : Enc} {d : List Byte} (ha : EAlike e e1) (h : e.commit gf dbg d = .ok e') :
    ∃ e2, e1.commit gf dbg d = .ok e2 ∧ EAlike e' e2 := by
  obtain ⟨o, rfl, ho⟩ := ha
  unfold Enc.commit at h ⊢
  simp only [bind_ok_iff] at h ⊢
  obtain ⟨_, h1, _, h2, _, h3, _, h4, ea, h5, eb, h6, h⟩ := h
  cases h
  have k1 : ∃ ea', Enc.emitNew gf dbg ({ id := e.curSrc, sym := d } : ESource)
      { ({ e with out := o } : Enc) with sources := (if e.sources.length = e.windowSize then e.sources.tail else e.sources) ++ [({ id := e.curSrc, sym := d } : ESource)] } =
      .ok ea' ∧ EAlike ea ea' := by
    unfold Enc.emitNew at h5 ⊢
    simp only at h5 ⊢
    split at h5
    · rename_i hc
      cases h5
      rw [if_pos hc]
      exact ⟨_, rfl, _, rfl, List.rel_append ho (List.Forall₂.cons rfl .nil)⟩
    · rename_i hc
      rw [if_neg hc]
      have hE : EAlike { e with sources := (if e.sources.length = e.windowSize then e.sources.tail else e.sources) ++ [({ id := e.curSrc, sym := d } : ESource)] }
          { e with sources := (if e.sources.length = e.windowSize then e.sources.tail else e.sources) ++ [({ id := e.curSrc, sym := d } : ESource)], out := o } :=
        ⟨o, rfl, ho⟩
      exact generateRepair_alikeLE hE h5
  obtain ⟨ea', k1, k2⟩ := k1
  have k3 : ∃ eb', ea'.autoRepair gf dbg = .ok eb' ∧ EAlike eb eb' := by
    obtain ⟨o', rfl, ho'⟩ := k2
    unfold Enc.autoRepair at h6 ⊢
    simp only [bind_ok_iff] at h6 ⊢
    obtain ⟨_, a1, h6⟩ := h6
    split at h6
    · rename_i hc
      obtain ⟨x, x1, x2⟩ := generateRepair_alikeLE ⟨o', rfl, ho'⟩ h6
      exact ⟨x, ⟨(), a1, by rw [if_pos hc]; exact x1⟩, x2⟩
    · rename_i hc
      cases h6
      exact ⟨_, ⟨(), a1, by rw [if_neg hc]⟩, o', rfl, ho'⟩
  obtain ⟨eb', k3, o', rfl, ho'⟩ := k3
  exact ⟨_, ⟨(), h1, (), h2, (), h3, (), h4, ea', k1, _, k3, rfl⟩, o', rfl, ho'⟩

omit hw in
theorem encNotify_alike {F : F64} {e e1 e' : Enc} {p : List Byte} {x : Except CppErr Nat} (ha : EAlike e e1)
    (h : e.notify F dbg p = .ok (e', x)) : ∃ e2, e1.notify F dbg p = .ok (e2, x) ∧ EAlike e' e2 := by
  obtain ⟨o, rfl, ho⟩ := ha
  unfold Enc.notify at h ⊢
  simp only [bind_ok_iff] at h ⊢
  obtain ⟨_, h1, h⟩ := h
  cases hp : getPacketType p with
  | error x =>
    rw [hp] at h
    cases x <;> cases h
    exact ⟨_, ⟨(), h1, rfl⟩, o, rfl, ho⟩
  | ok t =>
    rw [hp] at h
    cases t with
    | ack =>
      simp only at h ⊢
      cases hq : readAck p with
      | error x =>
        rw [hq] at h
        cases x <;> cases h
        exact ⟨_, ⟨(), h1, rfl⟩, o, rfl, ho⟩
      | ok q =>
        rw [hq] at h
        cases h
        exact ⟨_, ⟨(), h1, rfl⟩, o, rfl, ho⟩
    | source => cases h; exact ⟨_, ⟨(), h1, rfl⟩, o, rfl, ho⟩
    | repair => cases h; exact ⟨_, ⟨(), h1, rfl⟩, o, rfl, ho⟩

end

/-! ## The decoder: no field is used -/

theorem onSource_be (gf : GF w) (dbg : Bool) (s : Dec) (src : DSource) (h : SrcOnly s) : s.onSourceBE gf dbg src = s.onSource gf dbg src := by
  unfold Dec.onSourceBE Dec.onSource
  split
  · rfl
  split
  · rfl
  obtain ⟨s1, h1, i1, e1⟩ := giveNew_total dbg src s h
  have hf : s.fuel = 5 + 1 := by unfold Dec.fuel; rw [h.rep, h.mis]; rfl
  have hhead : addSourceHead gf dbg src s = .ok s1 := by
    unfold addSourceHead
    rw [h1]
    simp only [bind, Except.bind, i1.mis]
    rfl
  have hheadBE : addSourceHeadBE gf dbg src s = .ok s1 := by
    unfold addSourceHeadBE
    rw [h1]
    simp only [bind, Except.bind, i1.mis]
    rfl
  have hscan : scanMissing gf dbg 5 s1.missing.keys.head? s1 = .ok s1 := by
    rw [i1.mis]
    unfold scanMissing
    rfl
  have hscanBE : scanMissingBE gf dbg 5 s1.missing.keys.head? s1 = .ok s1 := by
    rw [i1.mis]
    unfold scanMissingBE
    rfl
  have hadd : addSourceBE gf dbg 6 src s = addSource gf dbg 6 src s := by
    unfold addSourceBE addSource
    rw [hhead, hheadBE]
    simp only [bind, Except.bind, hscan, hscanBE]
  rw [hf, hadd]
  cases ha : addSource gf dbg (5 + 1) src s with
  | error f => rfl
  | ok s2 =>
    have hr : s2.repairs = [] := by
      unfold addSource at ha
      rw [hhead] at ha
      simp only [bind, Except.bind, hscan] at ha
      unfold addSourceTail at ha
      simp only [bind_ok_iff] at ha
      obtain ⟨_, _, ha⟩ := ha
      split at ha <;> cases ha <;> exact i1.rep
    simp only [bind, Except.bind]
    unfold Dec.fullDecodeBE Dec.fullDecode
    simp only [hr]
    rfl

/-- A packet that says it is a source is read and handled in the same way. -/
theorem notify_be (gf : GF w) (dbg : Bool) (clk : Clock) (d : NDec) {p : List Byte} (hp : getPacketType p = .ok .source) (h : SrcOnly d.det) :
    d.notifyBE gf dbg clk p = d.notify gf dbg clk p := by
  unfold NDec.notifyBE NDec.notify
  simp only [hp, onSource_be gf dbg d.det _ h]
  rfl

theorem notify_srcOnly {gf : GF w} {dbg : Bool} {clk : Clock} {d d' : NDec} {x : Except CppErr Nat} {p : List Byte}
    (hp : getPacketType p = .ok .source) (h : SrcOnly d.det) (hd : d.notify gf dbg clk p = .ok (d', x)) : SrcOnly d'.det := by
  rw [NDec.notify_of_source _ _ _ _ hp] at hd
  cases hr : readSource p with
  | error e => rw [hr] at hd; cases e <;> cases hd; exact h
  | ok q =>
    obtain ⟨sr, n⟩ := q
    rw [hr] at hd
    obtain ⟨det', h1, h2⟩ := map_ok_iff.1 hd
    obtain ⟨s1, k1, k2⟩ := onSource_total gf dbg d.det sr h
    rw [h1] at k1
    cases k1
    cases h2
    rw [(afterDet_step clk d.gotSource det' (onSource_ext h1).log).2.1]
    exact k2

/-! ## The system -/

/-- The two runs, next to each other. -/
structure SrcPair (s t : Sys) : Prop where
  same : s = { t with enc := s.enc }
  enc : EAlike t.enc s.enc
  src : SrcOnly t.dec.det

theorem alike_source {e e1 : Enc} (h : EAlike e e1) {i : Nat} {sr : ESource} (hi : e.out[i]? = some (.source sr)) :
    e1.out[i]? = some (.source sr) := by
  obtain ⟨o, rfl, ho⟩ := h
  show o[i]? = _
  generalize e.out = l at *
  induction ho generalizing i with
  | nil => cases hi
  | cons h1 h2 ih =>
    cases i with
    | zero =>
      simp only [List.getElem?_cons_zero, Option.some.injEq] at hi
      subst hi
      simp only [List.getElem?_cons_zero, Option.some.injEq]
      exact h1
    | succ i => exact ih hi

theorem alike_repair {e e1 : Enc} (h : EAlike e e1) {i : Nat} {r : ERepair} (hi : e.out[i]? = some (.repair r)) :
    ∃ x, e1.out[i]? = some (.repair { r with sym := x }) ∧ x.length = r.sym.length := by
  obtain ⟨o, rfl, ho⟩ := h
  show ∃ x, o[i]? = _ ∧ _
  generalize e.out = l at *
  induction ho generalizing i with
  | nil => cases hi
  | cons h1 h2 ih =>
    cases i with
    | zero =>
      simp only [List.getElem?_cons_zero, Option.some.injEq] at hi
      subst hi
      obtain ⟨r', rfl, k⟩ := h1
      refine ⟨r'.sym, ?_, k.len⟩
      simp only [List.getElem?_cons_zero, Option.some.injEq, EPkt.repair.injEq]
      obtain ⟨a, b, c, d⟩ := r'
      obtain ⟨k1, k2, k3, _⟩ := k
      cases k1; cases k2; cases k3
      rfl
    | succ i => exact ih hi

theorem alike_length {e e1 : Enc} (h : EAlike e e1) : e1.out.length = e.out.length := by
  obtain ⟨o, rfl, ho⟩ := h
  exact ho.length_eq.symm

theorem srcPair_step (hw : ValidW w) {c : Cfg w} {eb db : Bool} {s t t' : Sys} {a : Act} (hp : SrcPair s t) (h : t.step c a = .ok t')
    (hs : ∀ i, a = .deliver i → t.enc.out[i]? = none ∨ ∃ sr, t.enc.out[i]? = some (.source sr)) :
    ∃ s', s.stepOrd eb db c a = .ok s' ∧ SrcPair s' t' := by
  obtain ⟨h1, h2, h3⟩ := hp
  obtain ⟨e1, d, com, hi, er⟩ := s
  obtain ⟨e, d0, com0, hi0, er0⟩ := t
  cases h1
  suffices ∃ e2, Sys.stepOrd eb db c ⟨e1, d0, com0, hi0, er0⟩ a = .ok { t' with enc := e2 } ∧ EAlike t'.enc e2 ∧ SrcOnly t'.dec.det by
    obtain ⟨e2, x1, x2, x3⟩ := this
    exact ⟨_, x1, rfl, x2, x3⟩
  cases a with
  | commit x =>
    simp only [Sys.step, bind_ok_iff] at h
    obtain ⟨e', k, h⟩ := h
    cases h
    cases eb
    · obtain ⟨e2, g1, g2⟩ := commit_alikeLE h2 k
      exact ⟨_, bind_ok_iff.2 ⟨_, g1, rfl⟩, g2, h3⟩
    · obtain ⟨e2, g1, g2⟩ := commit_alike hw h2 k
      exact ⟨_, bind_ok_iff.2 ⟨_, g1, rfl⟩, g2, h3⟩
  | repair =>
    simp only [Sys.step, bind_ok_iff] at h
    obtain ⟨e', k, h⟩ := h
    cases h
    cases eb
    · obtain ⟨e2, g1, g2⟩ := generateRepair_alikeLE h2 k
      exact ⟨_, bind_ok_iff.2 ⟨_, g1, rfl⟩, g2, h3⟩
    · obtain ⟨e2, g1, g2⟩ := generateRepair_alike hw h2 k
      exact ⟨_, bind_ok_iff.2 ⟨_, g1, rfl⟩, g2, h3⟩
  | setRate n =>
    obtain ⟨o, rfl, ho⟩ := h2
    simp only [Sys.step, bind_ok_iff, Enc.setRate] at h
    obtain ⟨_, ⟨_, k1, k2⟩, h⟩ := h
    cases h; cases k2
    refine ⟨_, ?_, ⟨o, rfl, ho⟩, h3⟩
    cases eb <;> exact bind_ok_iff.2 ⟨_, bind_ok_iff.2 ⟨(), k1, rfl⟩, rfl⟩
  | setWindow n =>
    obtain ⟨o, rfl, ho⟩ := h2
    simp only [Sys.step, bind_ok_iff, Enc.setWindowSize] at h
    obtain ⟨_, ⟨_, k1, k2⟩, h⟩ := h
    cases h; cases k2
    refine ⟨_, ?_, ⟨o, rfl, ho⟩, h3⟩
    cases eb <;> exact bind_ok_iff.2 ⟨_, bind_ok_iff.2 ⟨(), k1, rfl⟩, rfl⟩
  | setAckNb n =>
    simp only [Sys.step, bind_ok_iff, NDec.setAckNb] at h
    obtain ⟨_, ⟨_, k1, k2⟩, h⟩ := h
    cases h; cases k2
    refine ⟨_, ?_, h2, h3⟩
    cases eb <;> exact bind_ok_iff.2 ⟨_, bind_ok_iff.2 ⟨(), k1, rfl⟩, rfl⟩
  | setAdaptive b =>
    cases h
    obtain ⟨o, rfl, ho⟩ := h2
    exact ⟨_, by cases eb <;> rfl, ⟨o, rfl, ho⟩, h3⟩
  | setSystematic b =>
    cases h
    obtain ⟨o, rfl, ho⟩ := h2
    exact ⟨_, by cases eb <;> rfl, ⟨o, rfl, ho⟩, h3⟩
  | genAck => cases h; exact ⟨_, by cases eb <;> rfl, h2, h3⟩
  | maybeAck =>
    cases h
    refine ⟨_, by cases eb <;> rfl, h2, ?_⟩
    show SrcOnly (d0.maybeAckWith c.clk d0.det.sources.keys).det
    rw [(maybeAckWith_frame c.clk d0 d0.det.sources.keys).1]
    exact h3
  | setAckPeriod ms => cases h; exact ⟨_, by cases eb <;> rfl, h2, h3⟩
  | ack j =>
    have e0 : ∀ s : Sys, s.stepOrd eb db c (.ack j) = s.step c (.ack j) := fun s => by cases eb <;> rfl
    rw [e0]
    simp only [Sys.step] at h ⊢
    cases hj : d0.out[j]? with
    | none => rw [hj] at h; cases h; exact ⟨_, rfl, h2, h3⟩
    | some p =>
      rw [hj] at h
      obtain ⟨⟨e', x⟩, k1, h⟩ := bind_ok_iff.1 h
      cases h
      obtain ⟨e2, g1, g2⟩ := encNotify_alike h2 k1
      exact ⟨_, bind_ok_iff.2 ⟨_, g1, rfl⟩, g2, h3⟩
  | deliver i =>
    rcases hs i rfl with h0 | ⟨sr, h0⟩
    · have g0 : e1.out[i]? = none := by
        rw [List.getElem?_eq_none_iff] at h0 ⊢
        rw [alike_length h2]
        exact h0
      simp only [Sys.step, h0] at h
      cases h
      refine ⟨_, ?_, h2, h3⟩
      cases db <;> simp only [Sys.stepOrd, Sys.step, g0, if_true, Bool.false_eq_true, if_false] <;> rfl
    · have g0 := alike_source h2 h0
      simp only [Sys.step, h0] at h
      obtain ⟨⟨d', x⟩, k1, h⟩ := bind_ok_iff.1 h
      cases h
      have ht : getPacketType (EPkt.source sr).bytes = .ok .source := getPacketType_source sr
      refine ⟨_, ?_, h2, notify_srcOnly ht h3 k1⟩
      cases db
      · simp only [Sys.stepOrd, Sys.step, g0, Bool.false_eq_true, if_false]
        exact bind_ok_iff.2 ⟨_, k1, rfl⟩
      · simp only [Sys.stepOrd, g0, if_true]
        exact bind_ok_iff.2 ⟨_, (notify_be _ _ _ _ ht h3).trans k1, rfl⟩

theorem step_histOrd {c : Cfg w} {s s' : Sys} {a : Act} (h : s.step c a = .ok s') :
    s.hist <+: s'.hist ∧ ∀ i, a = .deliver i → s.enc.out[i]? = none ∨ i ∈ s'.hist := by
  cases a with
  | deliver i =>
    simp only [Sys.step] at h
    cases hi : s.enc.out[i]? with
    | none => rw [hi] at h; cases h; exact ⟨List.prefix_refl _, fun j hj => by cases hj; exact .inl hi⟩
    | some p =>
      rw [hi] at h
      obtain ⟨_, _, h⟩ := bind_ok_iff.1 h
      cases h
      exact ⟨List.prefix_append _ _, fun j hj => by cases hj; exact .inr (by simp)⟩
  | ack j =>
    refine ⟨?_, fun i hi => by cases hi⟩
    simp only [Sys.step] at h
    cases hi : s.dec.out[j]? with
    | none => rw [hi] at h; cases h; exact List.prefix_refl _
    | some p =>
      rw [hi] at h
      obtain ⟨_, _, h⟩ := bind_ok_iff.1 h
      cases h
      exact List.prefix_refl _
  | _ =>
    refine ⟨?_, fun i hi => by cases hi⟩
    first
    | (cases h; exact List.prefix_refl _)
    | (simp only [Sys.step, bind_ok_iff] at h
       obtain ⟨_, _, h⟩ := h
       cases h
       exact List.prefix_refl _)

theorem run_histOrd {c : Cfg w} {s s' : Sys} {acts : List Act} (h : s.run c acts = .ok s') : s.hist <+: s'.hist ∧ s.enc.out <+: s'.enc.out := by
  induction acts generalizing s with
  | nil => cases h; exact ⟨List.prefix_refl _, List.prefix_refl _⟩
  | cons a acts ih =>
    obtain ⟨u, h1, h2⟩ := bind_ok_iff.1 ((List.foldlM_cons ..).symm.trans h)
    exact ⟨(step_histOrd h1).1.trans (ih h2).1, (step_out h1).trans (ih h2).2⟩

theorem srcPair_run (hw : ValidW w) {c : Cfg w} {eb db : Bool} {acts : List Act} {s t t' : Sys} (hp : SrcPair s t) (h : t.run c acts = .ok t')
    (hs : ∀ i ∈ t'.hist, ∃ sr, t'.enc.out[i]? = some (.source sr)) : ∃ s', s.runOrd eb db c acts = .ok s' ∧ SrcPair s' t' := by
  induction acts generalizing s t with
  | nil => cases h; exact ⟨s, rfl, hp⟩
  | cons a acts ih =>
    obtain ⟨u, h1, h2⟩ := bind_ok_iff.1 ((List.foldlM_cons ..).symm.trans h)
    have hm := run_histOrd h2
    obtain ⟨s1, k1, k2⟩ := srcPair_step hw (eb := eb) (db := db) hp h1 (fun i hi => by
      rcases (step_histOrd h1).2 i hi with g | g
      · exact .inl g
      · rcases hg : t.enc.out[i]? with _ | p
        · exact .inl rfl
        · obtain ⟨sr, e⟩ := hs i (hm.1.subset g)
          obtain ⟨l, hl⟩ := (step_out h1).trans hm.2
          rw [← hl, List.getElem?_append_left (List.getElem?_eq_some_iff.1 hg).1, hg] at e
          exact .inr ⟨sr, e⟩)
    obtain ⟨s', g1, g2⟩ := ih k2 h2
    exact ⟨s', (List.foldlM_cons ..).trans (bind_ok_iff.2 ⟨s1, k1, g1⟩), g2⟩

theorem srcPair_init (clk : Clock) (io : Bool) : SrcPair (Sys.init clk io) (Sys.init clk io) :=
  ⟨rfl, ⟨[], rfl, .nil⟩, ⟨rfl, rfl, List.Pairwise.nil, fun _ h => (List.not_mem_nil h).elim, fun _ h => (List.not_mem_nil h).elim⟩⟩

end Netcode
