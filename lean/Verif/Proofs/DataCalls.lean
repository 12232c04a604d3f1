import Verif.Spec.DataCalls
import Verif.Proofs.Both
import Verif.Proofs.DecProps
import Verif.Proofs.AckIds

/-!
# Lemmas about data handlers that call the library
-/

set_option linter.unusedSectionVars false

namespace Netcode

variable {w : Nat}

/-- The calls of a handler do not fail, and change nothing but what concerns acks. -/
theorem call_frame {dbg : Bool} (clk : Clock) (held : List Nat) (d : NDec) {x : DCall} (hx : x.Ok) :
    ∃ d', d.call dbg clk held x = .ok d' ∧ ButAcks d d' ∧
      ∀ K : Set Nat, (∀ y ∈ held, y ∈ K) → AckInv K d → AckInv K d' := by
  cases x with
  | genAck => exact ⟨_, rfl, ⟨rfl, rfl, rfl, rfl⟩, fun K hK h => generateAckWith_inv h held hK⟩
  | maybeAck =>
    have h1 := maybeAckWith_frame clk d held
    have h2 := maybeAckWith_step clk d held
    exact ⟨_, rfl, ⟨h1.1, h1.2, h2.rep, h2.src⟩, fun K hK h => maybeAckWith_inv h clk held hK⟩
  | setAckNb n =>
    have h0 : 0 < n := Nat.pos_of_ne_zero hx
    refine ⟨{ d with ackNb := min n 128 }, ?_, ⟨rfl, rfl, rfl, rfl⟩, fun K _ h => h.congr rfl h.packets rfl⟩
    simp [NDec.call, NDec.setAckNb, cassert, h0]
  | setAckPeriod ms => exact ⟨_, rfl, ⟨rfl, rfl, rfl, rfl⟩, fun K _ h => h.congr rfl h.packets rfl⟩

theorem ButAcks.refl (d : NDec) : ButAcks d d := ⟨rfl, rfl, rfl, rfl⟩

theorem ButAcks.trans {a b c : NDec} (h : ButAcks a b) (g : ButAcks b c) : ButAcks a c :=
  ⟨g.det.trans h.det, g.data.trans h.data, g.repairs.trans h.repairs, g.sources.trans h.sources⟩

theorem calls_frame {dbg : Bool} (clk : Clock) (held : List Nat) (l : List DCall) (hl : ∀ x ∈ l, x.Ok) (d : NDec) :
    ∃ d', l.foldlM (NDec.call dbg clk held) d = .ok d' ∧ ButAcks d d' ∧
      ∀ K : Set Nat, (∀ y ∈ held, y ∈ K) → AckInv K d → AckInv K d' := by
  induction l generalizing d with
  | nil => exact ⟨d, rfl, .refl d, fun K _ h => h⟩
  | cons x t ih =>
    obtain ⟨d1, h1, h2, h3⟩ := call_frame (dbg := dbg) clk held d (hl x (by simp))
    obtain ⟨d2, g1, g2, g3⟩ := ih (fun y hy => hl y (by simp [hy])) d1
    refine ⟨d2, ?_, h2.trans g2, fun K hK h => g3 K hK (h3 K hK h)⟩
    rw [List.foldlM_cons, h1]
    exact g1

theorem handleC_frame {dbg : Bool} (clk : Clock) {H : Nat → List DCall} (hH : CallsOk H) (evs : List Event) (d : NDec) :
    ∃ d', evs.foldlM (NDec.handleSourceC dbg clk H) d = .ok d' ∧ d'.det = d.det ∧ d'.data = d.data ++ evs.map (·.data) ∧
      d'.nbRepairs = d.nbRepairs ∧ d'.nbSources = d.nbSources ∧
      ∀ K : Set Nat, (∀ ev ∈ evs, ∀ y ∈ ev.held, y ∈ K) → AckInv K d → AckInv K d' := by
  induction evs generalizing d with
  | nil => exact ⟨d, rfl, rfl, by simp, rfl, rfl, fun K _ h => h⟩
  | cons ev t ih =>
    obtain ⟨d1, h1, h2, h3⟩ := calls_frame (dbg := dbg) clk ev.held (H d.data.length) (hH _) { d with data := d.data ++ [ev.data] }
    have f1 := maybeAckWith_frame clk d1 ev.held
    have f2 := maybeAckWith_step clk d1 ev.held
    obtain ⟨d2, g1, g2, g3, g4, g5, g6⟩ := ih (d1.maybeAckWith clk ev.held)
    refine ⟨d2, ?_, ?_, ?_, ?_, ?_, fun K hK h => ?_⟩
    · rw [List.foldlM_cons]
      unfold NDec.handleSourceC at g1 ⊢
      simp only [h1]
      exact g1
    · rw [g2, f1.1, h2.det]
    · rw [g3, f1.2, h2.data]; simp
    · rw [g4, f2.rep, h2.repairs]
    · rw [g5, f2.src, h2.sources]
    · refine g6 K (fun e he => hK e (by simp [he])) (maybeAckWith_inv (h3 K (hK ev (by simp)) ?_) clk ev.held (hK ev (by simp)))
      exact h.congr rfl h.packets rfl

theorem afterDetC_frame {dbg : Bool} (clk : Clock) {H : Nat → List DCall} (hH : CallsOk H) (d e : NDec) (det' : Dec) (h : ButAcks d e) :
    ∃ e', e.afterDetC dbg clk H det' = .ok e' ∧ ButAcks (d.afterDet clk det') e' ∧
      ∀ K : Set Nat, (∀ ev ∈ det'.log, ∀ y ∈ ev.held, y ∈ K) → AckInv K e → AckInv K e' := by
  obtain ⟨e', h1, h2, h3, h4, h5, h6⟩ := handleC_frame (dbg := dbg) clk hH (det'.log.drop e.det.log.length) { e with det := det' }
  obtain ⟨g1, g2, g3⟩ := handleFold_step clk (det'.log.drop d.det.log.length) { d with det := det' }
  refine ⟨e', h1, ⟨?_, ?_, ?_, ?_⟩, fun K hK hA => h6 K (fun ev hev => hK ev (List.mem_of_mem_drop hev)) ⟨hA.sorted, hA.ids, hA.packets, hA.out⟩⟩
  · rw [h2]; unfold NDec.afterDet; rw [g2]
  · rw [h3]; unfold NDec.afterDet; rw [g3]; simp only [h.data, h.det]
  · rw [h4]; unfold NDec.afterDet; rw [g1.rep]; exact h.repairs
  · rw [h5]; unfold NDec.afterDet; rw [g1.src]; exact h.sources

/-- The same packet given to both decoders. -/
theorem notifyC_frame (gf : GF w) {dbg : Bool} (clk : Clock) {H : Nat → List DCall} (hH : CallsOk H) (d e : NDec) (h : ButAcks d e)
    (p : List Byte) :
    (∀ f, d.notify gf dbg clk p = .error f → e.notifyC gf dbg clk H p = .error f) ∧
    ∀ d' r, d.notify gf dbg clk p = .ok (d', r) → ∃ e', e.notifyC gf dbg clk H p = .ok (e', r) ∧ ButAcks d' e' ∧
      ∀ K : Set Nat, (∀ ev ∈ d'.det.log, ∀ y ∈ ev.held, y ∈ K) → AckInv K e → AckInv K e' := by
  have hR : ButAcks { d with nbRepairs := d.nbRepairs + 1, ackPackets := (d.ackPackets + 1) % 2 ^ 16 }
      { e with nbRepairs := e.nbRepairs + 1, ackPackets := (e.ackPackets + 1) % 2 ^ 16 } :=
    ⟨h.det, h.data, by simp [h.repairs], h.sources⟩
  have hS : ButAcks { d with nbSources := d.nbSources + 1, ackPackets := (d.ackPackets + 1) % 2 ^ 16 }
      { e with nbSources := e.nbSources + 1, ackPackets := (e.ackPackets + 1) % 2 ^ 16 } :=
    ⟨h.det, h.data, h.repairs, by simp [h.sources]⟩
  have hm : (e.ackPackets + 1) % 2 ^ 16 < 2 ^ 16 := Nat.mod_lt _ (by decide)
  unfold NDec.notify NDec.notifyC
  cases hca : cassert dbg (p.length ≠ 0) with
  | error f => exact ⟨fun g hg => hg, fun d' r hg => by cases hg⟩
  | ok u =>
    simp only [bind, Except.bind]
    rcases hty : getPacketType p with (f | x) | ty
    · refine ⟨(fun g hg => by cases hg), fun d' r hg => ?_⟩
      cases hg
      exact ⟨_, rfl, h, fun K _ hA => hA⟩
    · exact ⟨fun g hg => hg, fun d' r hg => by cases hg⟩
    · cases ty with
      | ack =>
        refine ⟨(fun g hg => by cases hg), fun d' r hg => ?_⟩
        cases hg
        exact ⟨_, rfl, h, fun K _ hA => hA⟩
      | repair =>
        rcases hrd : readRepair p with (f | x) | ⟨rp, n⟩
        · refine ⟨(fun g hg => by cases hg), fun d' r hg => ?_⟩
          cases hg
          exact ⟨_, rfl, hR, fun K _ hA => hA.congr rfl hm rfl⟩
        · exact ⟨fun g hg => hg, fun d' r hg => by cases hg⟩
        · simp only [h.det]
          cases ho : d.det.onRepair gf dbg rp with
          | error f => exact ⟨fun g hg => hg, fun d' r hg => by cases hg⟩
          | ok det' =>
            obtain ⟨e', h1, h2, h3⟩ := afterDetC_frame (dbg := dbg) clk hH _ _ det' hR
            simp only [h.det] at h1
            simp only [h1]
            refine ⟨(fun g hg => by cases hg), fun d' r hg => ?_⟩
            cases hg
            refine ⟨e', rfl, h2, fun K hK hA => h3 K (fun ev hev => hK ev ?_) (hA.congr rfl hm rfl)⟩
            have := (handleFold_step clk (det'.log.drop d.det.log.length)
              { d with nbRepairs := d.nbRepairs + 1, ackPackets := (d.ackPackets + 1) % 2 ^ 16, det := det' }).2.1
            unfold NDec.afterDet
            rw [this]; exact hev
      | source =>
        rcases hrd : readSource p with (f | x) | ⟨rp, n⟩
        · refine ⟨(fun g hg => by cases hg), fun d' r hg => ?_⟩
          cases hg
          exact ⟨_, rfl, hS, fun K _ hA => hA.congr rfl hm rfl⟩
        · exact ⟨fun g hg => hg, fun d' r hg => by cases hg⟩
        · simp only [h.det]
          cases ho : d.det.onSource gf dbg rp with
          | error f => exact ⟨fun g hg => hg, fun d' r hg => by cases hg⟩
          | ok det' =>
            obtain ⟨e', h1, h2, h3⟩ := afterDetC_frame (dbg := dbg) clk hH _ _ det' hS
            simp only [h.det] at h1
            simp only [h1]
            refine ⟨(fun g hg => by cases hg), fun d' r hg => ?_⟩
            cases hg
            refine ⟨e', rfl, h2, fun K hK hA => h3 K (fun ev hev => hK ev ?_) (hA.congr rfl hm rfl)⟩
            have := (handleFold_step clk (det'.log.drop d.det.log.length)
              { d with nbSources := d.nbSources + 1, ackPackets := (d.ackPackets + 1) % 2 ^ 16, det := det' }).2.1
            unfold NDec.afterDet
            rw [this]; exact hev

/-! ## The closed system -/

section
variable [Fact (0 < w)] {c : Cfg w} {io : Bool} {data : Nat → List Byte} {m : Sys}

/-- Changes of the decoder that do not concern `detail::decoder`. -/
theorem GInv.withDec (h : GInv c io data m) {d : NDec} (h1 : d.det = m.dec.det) (h2 : d.data = m.dec.data)
    (h3 : ∀ K : Set Nat, (∀ ev ∈ m.dec.det.log, ∀ y ∈ ev.held, y ∈ K) → AckInv K m.dec → AckInv K d) :
    GInv c io data { m with dec := d } := by
  cases io with
  | false =>
    obtain ⟨ems, A, ρ, L, W, K, h⟩ := h
    exact ⟨_, _, _, _, _, _, h.withDec h1 h2 (h3 K (fun ev hev y hy => h.dinv.log.held ev hev y hy) h.acks)⟩
  | true =>
    obtain ⟨ems, A, ρ, L, W, K, u, h⟩ := h
    have hA : AckInv K m.dec := ⟨h.inv.acks.sorted, h.inv.acks.ids, h.inv.acks.packets, h.inv.acks.out⟩
    have hA' := h3 K h.held hA
    refine ⟨ems, A, ρ, L, W, K, u, ?_, ?_, ?_, ?_⟩
    · exact h.inv.withDec (d := { d with det := u, data := u.log.map (·.data) }) rfl rfl ⟨hA'.sorted, hA'.ids, hA'.packets, hA'.out⟩
    · show Ord L d.det u; rw [h1]; exact h.ord
    · show ∀ ev ∈ d.det.log, _; rw [h1]; exact h.held
    · show d.data = d.det.log.map _; rw [h1, h2]; exact h.dataLog

/-- One step with such a handler. -/
theorem GInv.stepC (hc : c.Ok) (h : GInv c io data m) (hag : Agree data m.committed) (a : Act) (ha : AllowedLate c m a)
    (hd : ∀ d, a = .commit d → data m.committed.length = d) {H : Nat → List DCall} (hH : CallsOk H) :
    ∃ m', m.stepC c H a = .ok m' ∧ GInv c io data m' := by
  obtain ⟨m1, h1, h2⟩ := h.step hc hag a ha hd
  cases a with
  | deliver i =>
    cases hp : m.enc.out[i]? with
    | none =>
      simp only [Sys.step, hp] at h1
      cases h1
      exact ⟨m, by simp only [Sys.stepC, hp]; rfl, h2⟩
    | some p =>
      simp only [Sys.step, hp, bind_ok_iff, pure_ok_iff] at h1
      obtain ⟨⟨d, r⟩, h5, rfl⟩ := h1
      obtain ⟨e, g1, g2, g3⟩ := (notifyC_frame c.gf c.clk hH m.dec m.dec (.refl _) p.bytes).2 d r h5
      refine ⟨{ m with dec := e, hist := m.hist ++ [i], errs := m.errs + errCount r }, ?_, ?_⟩
      · simp only [Sys.stepC, hp, g1]; rfl
      · refine h2.withDec (d := e) g2.det g2.data (fun K hK hA => g3 K hK ?_)
        obtain ⟨u, ems, A, ρ, L, W, K0, hv⟩ := h.view
        exact hA.before (notify_kept h5) hv.acks.sorted hv.acks.packets
  | _ => exact ⟨m1, h1, h2⟩

end

theorem stepC_committed [Fact (0 < w)] {c : Cfg w} {H : Nat → List DCall} {a : Act} {s s' : Sys} (h : s.stepC c H a = .ok s') :
    s'.committed = s.committed ++ a.commits := by
  cases a with
  | deliver i =>
    cases hp : s.enc.out[i]? with
    | none => simp only [Sys.stepC, hp] at h; cases h; simp [Act.commits]
    | some p =>
      simp only [Sys.stepC, hp, bind_ok_iff, pure_ok_iff] at h
      obtain ⟨_, _, rfl⟩ := h
      simp [Act.commits]
  | _ => exact step_committed (c := c) h

theorem ginv_of_C [Fact (0 < w)] {c : Cfg w} (hc : c.Ok) {late io : Bool} {s : Sys} (h : ReachC c late io s) :
    ∀ data, Agree data s.committed → GInv c io data s := by
  induction h with
  | init => exact fun data hag => ginv_of_late hc .init data hag
  | @step s s' a H hr ha hH hst ih =>
    intro data hag
    rw [stepC_committed hst] at hag
    obtain ⟨m', g1, g2⟩ := (ih data hag.prefix).stepC hc hag.prefix a ha.toLate (by
      rintro d rfl
      exact hag _ d (by simp [Act.commits])) hH
    rw [hst] at g1
    cases g1
    exact g2

end Netcode
