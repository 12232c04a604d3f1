import Verif.Spec.AckCalls
import Verif.Proofs.DataCalls

/-!
# Packet handlers of a decoder that call it: nothing but acks changes
-/

namespace Netcode

variable {w : Nat}

/-- `AckInv` within the packet handler, where the identifiers of the ack have not been dropped yet. -/
structure AckMid (K : Set Nat) (d : NDec) : Prop where
  sorted : Sorted d.ackIds
  ids : ∀ x ∈ d.ackIds, x ∈ K
  packets : d.ackPackets < 2 ^ 16
  out : ∀ a ∈ d.out, Sorted a.ids ∧ (∀ x ∈ a.ids, x ∈ K) ∧ a.nbPackets < 2 ^ 16

theorem AckInv.mid {K : Set Nat} {d : NDec} (h : AckInv K d) : AckMid K d :=
  ⟨h.sorted, h.ids, h.packets, h.out⟩

theorem AckMid.inv {K : Set Nat} {d : NDec} (h : AckMid K d) : AckInv K d := ⟨h.sorted, h.ids, h.packets, h.out⟩

theorem AckMid.congr {K : Set Nat} {d d' : NDec} (h : AckMid K d) (h1 : d'.ackIds = d.ackIds)
    (h2 : d'.ackPackets = d.ackPackets) (h3 : d'.out = d.out) : AckMid K d' :=
  ⟨by rw [h1]; exact h.sorted, by rw [h1]; exact h.ids, by rw [h2]; exact h.packets, by rw [h3]; exact h.out⟩

/-- What a call leaves as it was. -/
structure Frame (d d' : NDec) (held : List Nat) : Prop where
  but : ButAcks d d'
  out : d.out <+: d'.out
  mid : ∀ K : Set Nat, (∀ y ∈ held, y ∈ K) → AckMid K d → AckMid K d'
  ids : d.ackIds = [] → d'.ackIds = []

theorem Frame.refl (d : NDec) (held : List Nat) : Frame d d held := ⟨.refl d, List.prefix_refl _, fun _ _ h => h, id⟩

theorem Frame.trans {a b c : NDec} {held : List Nat} (h : Frame a b held) (g : Frame b c held) : Frame a c held :=
  ⟨h.but.trans g.but, h.out.trans g.out, fun K hK hm => g.mid K hK (h.mid K hK hm), g.ids ∘ h.ids⟩

/-- The state in which the packet handler runs. -/
def NDec.inAck (held : List Nat) (d : NDec) : NDec :=
  { d with ackIds := held.foldl setInsert d.ackIds,
           out := d.out ++ [{ ids := held.foldl setInsert d.ackIds, nbPackets := d.ackPackets }] }

theorem inAck_mid {K : Set Nat} {d : NDec} {held : List Nat} (hK : ∀ y ∈ held, y ∈ K) (h : AckMid K d) : AckMid K (d.inAck held) := by
  have h1 : Sorted (held.foldl setInsert d.ackIds) := foldl_setInsert_sorted _ _ h.sorted
  have h2 : ∀ x ∈ held.foldl setInsert d.ackIds, x ∈ K := by
    intro x hx
    rw [foldl_setInsert_mem] at hx
    exact hx.elim (h.ids x) (hK x)
  refine ⟨h1, h2, h.packets, fun a ha => ?_⟩
  rcases List.mem_append.1 ha with ha | ha
  · exact h.out a ha
  · rw [List.mem_singleton] at ha
    subst ha
    exact ⟨h1, h2, h.packets⟩

theorem foldK_frame {held : List Nat} {f : NDec → DCall → Out NDec} (hf : ∀ d x d', f d x = .ok d' → Frame d d' held) (l : List DCall)
    {d d' : NDec} (h : l.foldlM f d = .ok d') : Frame d d' held := by
  induction l generalizing d with
  | nil => cases h; exact .refl _ _
  | cons x t ih =>
    rw [List.foldlM_cons, bind_ok_iff] at h
    obtain ⟨d1, h1, h2⟩ := h
    exact (hf _ _ _ h1).trans (ih h2)

/-- A call that returns changes nothing but what concerns acks. -/
theorem callK_frame {dbg : Bool} {clk : Clock} {H : Nat → List DCall} {held : List Nat} (fuel : Nat) :
    ∀ (d : NDec) (x : DCall) (d' : NDec), d.callK dbg clk H held fuel x = .ok d' → Frame d d' held := by
  induction fuel with
  | zero => intro d x d' h; cases h
  | succ n ih =>
    intro d x d' h
    cases x with
    | genAck =>
      rw [NDec.callK, bind_ok_iff] at h
      obtain ⟨d1, h1, h2⟩ := h
      cases h2
      have g : Frame (d.inAck held) d1 held := foldK_frame ih _ h1
      refine ⟨⟨g.but.1, g.but.2, g.but.3, g.but.4⟩, ?_, fun K hK hm => ?_, fun _ => rfl⟩
      · exact (List.prefix_append _ _).trans g.out
      · have := g.mid K hK (inAck_mid hK hm)
        exact ⟨List.Pairwise.nil, by simp, by show (0 : Nat) < 2 ^ 16; decide, this.out⟩
    | maybeAck =>
      rw [NDec.callK] at h
      split at h
      · rw [bind_ok_iff] at h
        obtain ⟨d1, h1, h2⟩ := h
        cases h2
        have g := ih _ _ _ h1
        exact ⟨⟨g.but.1, g.but.2, g.but.3, g.but.4⟩, g.out, fun K hK hm => (g.mid K hK hm).congr rfl rfl rfl, g.ids⟩
      · split at h
        · simp only at h
          split at h
          · rw [bind_ok_iff] at h
            obtain ⟨d1, h1, h2⟩ := h
            cases h2
            have g := ih _ _ _ h1
            exact ⟨⟨g.but.1, g.but.2, g.but.3, g.but.4⟩, g.out,
              fun K hK hm => (g.mid K hK (hm.congr rfl rfl rfl)).congr rfl rfl rfl, g.ids⟩
          · cases h
            exact ⟨⟨rfl, rfl, rfl, rfl⟩, List.prefix_refl _, fun K hK hm => hm.congr rfl rfl rfl, id⟩
        · cases h
          exact .refl _ _
    | setAckNb k =>
      simp only [NDec.callK, NDec.setAckNb, bind_ok_iff] at h
      obtain ⟨_, _, h⟩ := h
      cases h
      exact ⟨⟨rfl, rfl, rfl, rfl⟩, List.prefix_refl _, fun K hK hm => hm.congr rfl rfl rfl, id⟩
    | setAckPeriod ms =>
      cases h
      exact ⟨⟨rfl, rfl, rfl, rfl⟩, List.prefix_refl _, fun K hK hm => hm.congr rfl rfl rfl, id⟩

/-- How deep the calls go. -/
def callDepth (k : Nat) (d : NDec) : DCall → Nat
  | .genAck => 2 * (k - d.out.length) + 2
  | .maybeAck => 2 * (k - d.out.length) + 3
  | _ => 1

/-- The calls of a handler that asks for acks finitely often return. -/
theorem callK_returns {dbg : Bool} {clk : Clock} {H : Nat → List DCall} (hH : CallsOk H) {k : Nat} (hk : SettlesAt k H) {held : List Nat}
    (fuel : Nat) : ∀ (d : NDec) (x : DCall), x.Ok → callDepth k d x ≤ fuel → ∃ d', d.callK dbg clk H held fuel x = .ok d' := by
  induction fuel with
  | zero => intro d x hx h; cases x <;> simp [callDepth] at h
  | succ n ih =>
    intro d x hx h
    cases x with
    | genAck =>
      simp only [callDepth] at h
      have key : ∀ (l : List DCall), (∀ x ∈ l, x.Ok ∧ (k ≤ d.out.length → x.Setting)) → ∀ e : NDec, d.out.length < e.out.length →
          ∃ e', l.foldlM (fun d x => NDec.callK dbg clk H held n d x) e = .ok e' := by
        intro l
        induction l with
        | nil => exact fun _ e _ => ⟨e, rfl⟩
        | cons x t iht =>
          intro hl e he
          obtain ⟨hx, hs⟩ := hl x (by simp)
          obtain ⟨e1, h1⟩ := ih e x hx (by
            cases x with
            | genAck =>
              simp only [callDepth]
              by_cases hkd : k ≤ d.out.length
              · exact absurd (hs hkd) id
              · omega
            | maybeAck =>
              simp only [callDepth]
              by_cases hkd : k ≤ d.out.length
              · exact absurd (hs hkd) id
              · omega
            | setAckNb m => simp only [callDepth]; omega
            | setAckPeriod m => simp only [callDepth]; omega)
          have hp := (callK_frame n _ _ _ h1).out.length_le
          obtain ⟨e2, h2⟩ := iht (fun y hy => hl y (by simp [hy])) e1 (by omega)
          exact ⟨e2, by rw [List.foldlM_cons, h1]; exact h2⟩
      obtain ⟨d1, h1⟩ := key (H d.out.length) (fun x hx => ⟨hH _ x hx, fun hkd => hk _ hkd x hx⟩) (d.inAck held) (by simp [NDec.inAck])
      refine ⟨{ d1 with nbAcks := d1.nbAcks + 1, ackIds := [], ackPackets := 0 }, ?_⟩
      rw [NDec.callK]
      have : (H d.out.length).foldlM (fun d x => NDec.callK dbg clk H held n d x)
        { d with ackIds := held.foldl setInsert d.ackIds,
                 out := d.out ++ [{ ids := held.foldl setInsert d.ackIds, nbPackets := d.ackPackets }] } = .ok d1 := h1
      simp only [this]
      rfl
    | maybeAck =>
      simp only [callDepth] at h
      rw [NDec.callK]
      split
      · obtain ⟨d1, h1⟩ := ih d .genAck trivial (by simp only [callDepth]; omega)
        rw [h1]
        exact ⟨_, rfl⟩
      · split
        · simp only
          split
          · obtain ⟨d1, h1⟩ := ih { d with ticks := d.ticks + 1 } .genAck trivial (by simp only [callDepth]; omega)
            rw [h1]
            exact ⟨_, rfl⟩
          · exact ⟨_, rfl⟩
        · exact ⟨_, rfl⟩
    | setAckNb m =>
      have h0 : 0 < m := Nat.pos_of_ne_zero hx
      exact ⟨{ d with ackNb := min m 128 }, by simp [NDec.callK, NDec.setAckNb, cassert, h0]⟩
    | setAckPeriod ms => exact ⟨_, rfl⟩

/-! ## Packets -/

theorem handleK_frame {dbg : Bool} {clk : Clock} {H : Nat → List DCall} {fuel : Nat} (evs : List Event) {d d' : NDec}
    (h : evs.foldlM (NDec.handleSourceK dbg clk H fuel) d = .ok d') :
    d'.det = d.det ∧ d'.data = d.data ++ evs.map (·.data) ∧ d'.nbRepairs = d.nbRepairs ∧ d'.nbSources = d.nbSources ∧ d.out <+: d'.out ∧
      ∀ K : Set Nat, (∀ ev ∈ evs, ∀ y ∈ ev.held, y ∈ K) → AckInv K d → AckInv K d' := by
  induction evs generalizing d with
  | nil => cases h; exact ⟨rfl, by simp, rfl, rfl, List.prefix_refl _, fun K _ h => h⟩
  | cons ev t ih =>
    rw [List.foldlM_cons, bind_ok_iff] at h
    obtain ⟨d1, h1, h2⟩ := h
    have g := callK_frame fuel _ _ _ h1
    obtain ⟨g1, g2, g3, g4, g5, g6⟩ := ih h2
    refine ⟨g1.trans g.but.det, ?_, g3.trans g.but.repairs, g4.trans g.but.sources, g.out.trans g5, fun K hK hA => ?_⟩
    · rw [g2, g.but.data]; simp
    · have hm : AckMid K { d with data := d.data ++ [ev.data] } := hA.mid.congr rfl rfl rfl
      exact g6 K (fun e he => hK e (by simp [he])) ((g.mid K (hK ev (by simp)) hm).inv)

theorem handleK_returns {dbg : Bool} {clk : Clock} {H : Nat → List DCall} (hH : CallsOk H) {k fuel : Nat} (hk : SettlesAt k H)
    (hf : 2 * k + 3 ≤ fuel) (evs : List Event) (d : NDec) : ∃ d', evs.foldlM (NDec.handleSourceK dbg clk H fuel) d = .ok d' := by
  induction evs generalizing d with
  | nil => exact ⟨d, rfl⟩
  | cons ev t ih =>
    obtain ⟨d1, h1⟩ := callK_returns (dbg := dbg) (clk := clk) hH hk (held := ev.held) fuel { d with data := d.data ++ [ev.data] } .maybeAck
      trivial (by simp only [callDepth]; omega)
    obtain ⟨d2, h2⟩ := ih d1
    exact ⟨d2, by rw [List.foldlM_cons]; unfold NDec.handleSourceK at h2 ⊢; rw [h1]; exact h2⟩

theorem afterDetK_frame {dbg : Bool} {clk : Clock} {H : Nat → List DCall} {fuel : Nat} {d e e' : NDec} {det' : Dec} (h : ButAcks d e)
    (h1 : e.afterDetK dbg clk H fuel det' = .ok e') :
    ButAcks (d.afterDet clk det') e' ∧ e.out <+: e'.out ∧
      ∀ K : Set Nat, (∀ ev ∈ det'.log, ∀ y ∈ ev.held, y ∈ K) → AckInv K e → AckInv K e' := by
  obtain ⟨h2, h3, h4, h5, h6, h7⟩ := handleK_frame _ h1
  obtain ⟨g1, g2, g3⟩ := handleFold_step clk (det'.log.drop d.det.log.length) { d with det := det' }
  refine ⟨⟨?_, ?_, ?_, ?_⟩, h6, fun K hK hA => h7 K (fun ev hev => hK ev (List.mem_of_mem_drop hev)) ⟨hA.sorted, hA.ids, hA.packets, hA.out⟩⟩
  · rw [h2]; unfold NDec.afterDet; rw [g2]
  · rw [h3]; unfold NDec.afterDet; rw [g3]; simp only [h.data, h.det]
  · rw [h4]; unfold NDec.afterDet; rw [g1.rep]; exact h.repairs
  · rw [h5]; unfold NDec.afterDet; rw [g1.src]; exact h.sources

/-- The same packet given to both decoders: unless the calls of the handler do not return, all is the same but acks. -/
theorem notifyK_frame (gf : GF w) {dbg : Bool} {clk : Clock} {H : Nat → List DCall} {fuel : Nat} {d e : NDec} (h : ButAcks d e)
    (p : List Byte) :
    (∀ f, d.notify gf dbg clk p = .error f → e.notifyK gf dbg clk H fuel p = .error f) ∧
    ∀ d' r, d.notify gf dbg clk p = .ok (d', r) →
      (∀ e' r', e.notifyK gf dbg clk H fuel p = .ok (e', r') → r' = r ∧ ButAcks d' e' ∧ e.out <+: e'.out ∧
        ∀ K : Set Nat, (∀ ev ∈ d'.det.log, ∀ y ∈ ev.held, y ∈ K) → AckInv K e → AckInv K e') ∧
      ((∀ (evs : List Event) (m : NDec), ∃ m', evs.foldlM (NDec.handleSourceK dbg clk H fuel) m = .ok m') →
        ∃ e', e.notifyK gf dbg clk H fuel p = .ok (e', r)) := by
  have hR : ButAcks { d with nbRepairs := d.nbRepairs + 1, ackPackets := (d.ackPackets + 1) % 2 ^ 16 }
      { e with nbRepairs := e.nbRepairs + 1, ackPackets := (e.ackPackets + 1) % 2 ^ 16 } :=
    ⟨h.det, h.data, by simp [h.repairs], h.sources⟩
  have hS : ButAcks { d with nbSources := d.nbSources + 1, ackPackets := (d.ackPackets + 1) % 2 ^ 16 }
      { e with nbSources := e.nbSources + 1, ackPackets := (e.ackPackets + 1) % 2 ^ 16 } :=
    ⟨h.det, h.data, h.repairs, by simp [h.sources]⟩
  have hm : (e.ackPackets + 1) % 2 ^ 16 < 2 ^ 16 := Nat.mod_lt _ (by decide)
  unfold NDec.notify NDec.notifyK
  cases hca : cassert dbg (p.length ≠ 0) with
  | error f => exact ⟨fun g hg => hg, fun d' r hg => by cases hg⟩
  | ok u =>
    simp only [bind, Except.bind]
    rcases hty : getPacketType p with (f | x) | ty
    · refine ⟨(fun g hg => by cases hg), fun d' r hg => ?_⟩
      cases hg
      exact ⟨fun e' r' he => (by cases he; exact ⟨rfl, h, List.prefix_refl _, fun K _ hA => hA⟩), fun _ => ⟨_, rfl⟩⟩
    · exact ⟨fun g hg => hg, fun d' r hg => by cases hg⟩
    · cases ty with
      | ack =>
        refine ⟨(fun g hg => by cases hg), fun d' r hg => ?_⟩
        cases hg
        exact ⟨fun e' r' he => (by cases he; exact ⟨rfl, h, List.prefix_refl _, fun K _ hA => hA⟩), fun _ => ⟨_, rfl⟩⟩
      | repair =>
        rcases hrd : readRepair p with (f | x) | ⟨rp, n⟩
        · refine ⟨(fun g hg => by cases hg), fun d' r hg => ?_⟩
          cases hg
          exact ⟨fun e' r' he => (by cases he; exact ⟨rfl, hR, List.prefix_refl _, fun K _ hA => hA.congr rfl hm rfl⟩), fun _ => ⟨_, rfl⟩⟩
        · exact ⟨fun g hg => hg, fun d' r hg => by cases hg⟩
        · simp only [h.det]
          cases ho : d.det.onRepair gf dbg rp with
          | error f => exact ⟨fun g hg => hg, fun d' r hg => by cases hg⟩
          | ok det' =>
            refine ⟨(fun g hg => by cases hg), fun d' r hg => ?_⟩
            cases hg
            have hfold := (handleFold_step clk (det'.log.drop d.det.log.length)
              { d with nbRepairs := d.nbRepairs + 1, ackPackets := (d.ackPackets + 1) % 2 ^ 16, det := det' }).2.1
            refine ⟨fun e' r' he => ?_, fun hret => ?_⟩
            · simp only [] at he
              split at he
              · cases he
              · next e1 h1 =>
                cases he
                have h1' : NDec.afterDetK dbg clk H fuel { e with nbRepairs := e.nbRepairs + 1, ackPackets := (e.ackPackets + 1) % 2 ^ 16 } det' = .ok e' := by
                  rw [← h1, h.det]
                obtain ⟨h2, h3, h4⟩ := afterDetK_frame hR h1'
                refine ⟨rfl, h2, h3, fun K hK hA => h4 K (fun ev hev => hK ev ?_) (hA.congr rfl hm rfl)⟩
                unfold NDec.afterDet
                rw [hfold]; exact hev
            · obtain ⟨e', h1⟩ := hret (det'.log.drop e.det.log.length)
                { e with nbRepairs := e.nbRepairs + 1, ackPackets := (e.ackPackets + 1) % 2 ^ 16, det := det' }
              refine ⟨e', ?_⟩
              unfold NDec.afterDetK
              rw [h.det] at h1
              simp only [h1]
              rfl
      | source =>
        rcases hrd : readSource p with (f | x) | ⟨rp, n⟩
        · refine ⟨(fun g hg => by cases hg), fun d' r hg => ?_⟩
          cases hg
          exact ⟨fun e' r' he => (by cases he; exact ⟨rfl, hS, List.prefix_refl _, fun K _ hA => hA.congr rfl hm rfl⟩), fun _ => ⟨_, rfl⟩⟩
        · exact ⟨fun g hg => hg, fun d' r hg => by cases hg⟩
        · simp only [h.det]
          cases ho : d.det.onSource gf dbg rp with
          | error f => exact ⟨fun g hg => hg, fun d' r hg => by cases hg⟩
          | ok det' =>
            refine ⟨(fun g hg => by cases hg), fun d' r hg => ?_⟩
            cases hg
            have hfold := (handleFold_step clk (det'.log.drop d.det.log.length)
              { d with nbSources := d.nbSources + 1, ackPackets := (d.ackPackets + 1) % 2 ^ 16, det := det' }).2.1
            refine ⟨fun e' r' he => ?_, fun hret => ?_⟩
            · simp only [] at he
              split at he
              · cases he
              · next e1 h1 =>
                cases he
                have h1' : NDec.afterDetK dbg clk H fuel { e with nbSources := e.nbSources + 1, ackPackets := (e.ackPackets + 1) % 2 ^ 16 } det' = .ok e' := by
                  rw [← h1, h.det]
                obtain ⟨h2, h3, h4⟩ := afterDetK_frame hS h1'
                refine ⟨rfl, h2, h3, fun K hK hA => h4 K (fun ev hev => hK ev ?_) (hA.congr rfl hm rfl)⟩
                unfold NDec.afterDet
                rw [hfold]; exact hev
            · obtain ⟨e', h1⟩ := hret (det'.log.drop e.det.log.length)
                { e with nbSources := e.nbSources + 1, ackPackets := (e.ackPackets + 1) % 2 ^ 16, det := det' }
              refine ⟨e', ?_⟩
              unfold NDec.afterDetK
              rw [h.det] at h1
              simp only [h1]
              rfl

/-! ## The closed system -/

section
variable [Fact (0 < w)] {c : Cfg w} {io : Bool} {data : Nat → List Byte} {m : Sys}

/-- Changes of the decoder that do not concern `detail::decoder`. -/
theorem GInv.withDecK (h : GInv c io data m) {d : NDec} (h1 : d.det = m.dec.det) (h2 : d.data = m.dec.data)
    (h3 : ∀ K : Set Nat, (∀ ev ∈ m.dec.det.log, ∀ y ∈ ev.held, y ∈ K) → (∀ y ∈ m.dec.det.sources.keys, y ∈ K) → AckInv K m.dec → AckInv K d) :
    GInv c io data { m with dec := d } := by
  cases io with
  | false =>
    obtain ⟨ems, A, ρ, L, W, K, h⟩ := h
    exact ⟨_, _, _, _, _, _, h.withDec h1 h2 (h3 K (fun ev hev y hy => h.dinv.log.held ev hev y hy)
      (fun y hy => h.dinv.core.src_keys y hy) h.acks)⟩
  | true =>
    obtain ⟨ems, A, ρ, L, W, K, u, h⟩ := h
    have hA : AckInv K m.dec := ⟨h.inv.acks.sorted, h.inv.acks.ids, h.inv.acks.packets, h.inv.acks.out⟩
    have hA' := h3 K h.held (fun y hy => h.inv.dinv.core.src_keys y (by
      show y ∈ u.sources.keys
      first | rw [← h.ord.like.same.sources]; exact hy | rw [h.ord.like.same.sources]; exact hy)) hA
    refine ⟨ems, A, ρ, L, W, K, u, ?_, ?_, ?_, ?_⟩
    · exact h.inv.withDec (d := { d with det := u, data := u.log.map (·.data) }) rfl rfl ⟨hA'.sorted, hA'.ids, hA'.packets, hA'.out⟩
    · show Ord L d.det u; rw [h1]; exact h.ord
    · show ∀ ev ∈ d.det.log, _; rw [h1]; exact h.held
    · show d.data = d.det.log.map _; rw [h1, h2]; exact h.dataLog

theorem GInv.callK (h : GInv c io data m) {H : Nat → List DCall} {fuel : Nat} {x : DCall} {d : NDec}
    (hd : m.dec.callK c.dbg c.clk H m.dec.det.sources.keys fuel x = .ok d) : GInv c io data { m with dec := d } := by
  have g := callK_frame fuel _ _ _ hd
  exact h.withDecK g.but.det g.but.data (fun K _ hK hA => (g.mid K hK hA.mid).inv)

/-- One step with such a handler, if its calls return. -/
theorem GInv.stepK (hc : c.Ok) (h : GInv c io data m) (hag : Agree data m.committed) (a : Act) (ha : AllowedLate c m a)
    (hd : ∀ d, a = .commit d → data m.committed.length = d) {H : Nat → List DCall} {fuel : Nat} {m' : Sys}
    (hst : m.stepK c H fuel a = .ok m') : GInv c io data m' := by
  obtain ⟨m1, h1, h2⟩ := h.step hc hag a ha hd
  have same : m.step c a = .ok m' → GInv c io data m' := by
    intro hs
    rw [h1] at hs; cases hs; exact h2
  cases a with
  | deliver i =>
    cases hp : m.enc.out[i]? with
    | none =>
      simp only [Sys.stepK, hp] at hst
      cases hst
      exact h
    | some p =>
      simp only [Sys.step, hp, bind_ok_iff, pure_ok_iff] at h1
      obtain ⟨⟨d, r⟩, h5, rfl⟩ := h1
      simp only [Sys.stepK, hp, bind_ok_iff, pure_ok_iff] at hst
      obtain ⟨⟨e, r'⟩, h6, rfl⟩ := hst
      obtain ⟨rfl, g2, g3, g4⟩ := ((notifyK_frame c.gf (.refl m.dec) p.bytes).2 d r h5).1 e r' h6
      refine h2.withDec (d := e) g2.det g2.data (fun K hK hA => g4 K hK ?_)
      obtain ⟨u, ems, A, ρ, L, W, K0, hv⟩ := h.view
      exact hA.before (notify_kept h5) hv.acks.sorted hv.acks.packets
  | genAck =>
    simp only [Sys.stepK, bind_ok_iff, pure_ok_iff] at hst
    obtain ⟨d, h3, rfl⟩ := hst
    exact h.callK h3
  | maybeAck =>
    simp only [Sys.stepK, bind_ok_iff, pure_ok_iff] at hst
    obtain ⟨d, h3, rfl⟩ := hst
    exact h.callK h3
  | _ => exact same hst

/-- The calls of a handler that asks for acks finitely often return. -/
theorem GInv.stepK_returns (hc : c.Ok) (h : GInv c io data m) (hag : Agree data m.committed) (a : Act) (ha : AllowedLate c m a)
    (hd : ∀ d, a = .commit d → data m.committed.length = d) {H : Nat → List DCall} {k fuel : Nat} (hH : CallsOk H) (hk : SettlesAt k H)
    (hf : 2 * k + 3 ≤ fuel) : ∃ m', m.stepK c H fuel a = .ok m' := by
  obtain ⟨m1, h1, h2⟩ := h.step hc hag a ha hd
  cases a with
  | deliver i =>
    cases hp : m.enc.out[i]? with
    | none => exact ⟨m, by simp only [Sys.stepK, hp]; rfl⟩
    | some p =>
      simp only [Sys.step, hp, bind_ok_iff, pure_ok_iff] at h1
      obtain ⟨⟨d, r⟩, h5, rfl⟩ := h1
      obtain ⟨e, g⟩ := ((notifyK_frame c.gf (.refl m.dec) p.bytes).2 d r h5).2 (handleK_returns hH hk hf)
      exact ⟨{ m with dec := e, hist := m.hist ++ [i], errs := m.errs + errCount r }, by simp only [Sys.stepK, hp, g]; rfl⟩
  | genAck =>
    obtain ⟨d, h3⟩ := callK_returns (dbg := c.dbg) (clk := c.clk) hH hk (held := m.dec.det.sources.keys) fuel m.dec .genAck trivial
      (by simp only [callDepth]; omega)
    exact ⟨{ m with dec := d }, by simp only [Sys.stepK, h3]; rfl⟩
  | maybeAck =>
    obtain ⟨d, h3⟩ := callK_returns (dbg := c.dbg) (clk := c.clk) hH hk (held := m.dec.det.sources.keys) fuel m.dec .maybeAck trivial
      (by simp only [callDepth]; omega)
    exact ⟨{ m with dec := d }, by simp only [Sys.stepK, h3]; rfl⟩
  | _ => exact ⟨m1, h1⟩

end

theorem stepK_committed [Fact (0 < w)] {c : Cfg w} {H : Nat → List DCall} {fuel : Nat} {a : Act} {s s' : Sys}
    (h : s.stepK c H fuel a = .ok s') : s'.committed = s.committed ++ a.commits := by
  cases a with
  | deliver i =>
    cases hp : s.enc.out[i]? with
    | none => simp only [Sys.stepK, hp] at h; cases h; simp [Act.commits]
    | some p =>
      simp only [Sys.stepK, hp, bind_ok_iff, pure_ok_iff] at h
      obtain ⟨_, _, rfl⟩ := h
      simp [Act.commits]
  | genAck =>
    simp only [Sys.stepK, bind_ok_iff, pure_ok_iff] at h
    obtain ⟨_, _, rfl⟩ := h
    simp [Act.commits]
  | maybeAck =>
    simp only [Sys.stepK, bind_ok_iff, pure_ok_iff] at h
    obtain ⟨_, _, rfl⟩ := h
    simp [Act.commits]
  | _ => exact step_committed (c := c) h

theorem ginv_of_K [Fact (0 < w)] {c : Cfg w} (hc : c.Ok) {late io : Bool} {s : Sys} (h : ReachK c late io s) :
    ∀ data, Agree data s.committed → GInv c io data s := by
  induction h with
  | init => exact fun data hag => ginv_of_late hc .init data hag
  | @step s s' a H fuel hr ha hH hst ih =>
    intro data hag
    rw [stepK_committed hst] at hag
    exact (ih data hag.prefix).stepK hc hag.prefix a ha.toLate (by
      rintro d rfl
      exact hag _ d (by simp [Act.commits])) hst

end Netcode
