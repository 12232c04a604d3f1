import Verif.Proofs.SysStep
import Verif.Proofs.SysFacts
import Verif.Proofs.DecHist
import Verif.Proofs.EncHist
import Verif.Proofs.Line
import Verif.Spec.Named

/-!
# The encoder and the decoder of a system with any schedule
-/

namespace Netcode

variable {w : Nat} [Fact (0 < w)] {c : Cfg w} {io : Bool} {s : Sys}

/-- What holds of the encoder whatever the network does. -/
structure EncSys (c : Cfg w) (data : Nat → List Byte) (ems : List Em) (A : Set Nat) (s : Sys) : Prop where
  enc : EncInv c.gf data ems A s.committed.length s.enc
  cur : s.enc.curSrc = s.committed.length
  curLt : s.committed.length < 2 ^ 32
  rep : s.enc.curRep = s.enc.nbSentRepairs
  rate : s.enc.rate ≠ 0
  ws : s.enc.windowSize ≠ 0

theorem EncSys.same {data : Nat → List Byte} {ems : List Em} {A : Set Nat} {s' : Sys} (h : EncSys c data ems A s)
    (h1 : s'.enc = s.enc) (h2 : s'.committed = s.committed) : EncSys c data ems A s' := by
  constructor
  · rw [h1, h2]; exact h.enc
  · rw [h1, h2]; exact h.cur
  · rw [h2]; exact h.curLt
  · rw [h1]; exact h.rep
  · rw [h1]; exact h.rate
  · rw [h1]; exact h.ws

theorem EncSys.param {data : Nat → List Byte} {ems : List Em} {A : Set Nat} (h : EncSys c data ems A s) {s' : Sys}
    (h0 : s'.committed = s.committed) (h1 : s'.enc.sources = s.enc.sources)
    (h2 : s'.enc.out = s.enc.out) (h3 : s'.enc.curRep = s.enc.curRep) (h4 : s'.enc.curSrc = s.enc.curSrc)
    (h5 : s'.enc.nbSentRepairs = s.enc.nbSentRepairs) (h6 : s'.enc.rate ≠ 0) (h7 : s'.enc.windowSize ≠ 0) :
    EncSys c data ems A s' :=
  ⟨by rw [h0]; exact h.enc.congr h1 h2 h3, by rw [h0, h4]; exact h.cur, by rw [h0]; exact h.curLt, by rw [h3, h5]; exact h.rep, h6, h7⟩

theorem EncSys.step (hc : c.Ok) {data : Nat → List Byte} {ems : List Em} {A : Set Nat} (h : EncSys c data ems A s) {a : Act}
    {s' : Sys} (ha : ApiOk w s a) (hd : ∀ d, a = .commit d → data s.committed.length = d) (hst : s.step c a = .ok s') :
    ∃ ems' A', EncSys c data ems' A' s' := by
  cases a with
  | commit d =>
    obtain ⟨h1, h2, h3⟩ := ha
    rw [← h.rep] at h3
    have hd := hd d rfl
    subst hd
    obtain ⟨e', new, e1, e2, e3, e4, e5, _, _, _, _, e6, e7, _, _, _⟩ :=
      h.enc.commit hc.width c.dbg h.cur h1 h2 h3 h.rate h.ws
    simp only [Sys.step, e1, bind_ok_iff, pure_ok_iff] at hst
    obtain ⟨_, hh, rfl⟩ := hst
    cases hh
    refine ⟨ems ++ new, A, ?_, ?_, ?_, ?_, ?_, ?_⟩
    · show EncInv _ _ _ _ (s.committed ++ [_]).length _
      rw [List.length_append]; exact e2
    · show e'.curSrc = (s.committed ++ [_]).length
      rw [e3]; simp
    · show (s.committed ++ [_]).length < _
      simpa using h2
    · show e'.curRep = e'.nbSentRepairs
      rw [e6, e7, h.rep]
    · show e'.rate ≠ 0
      rw [e4]; exact h.rate
    · show e'.windowSize ≠ 0
      rw [e5]; exact h.ws
  | repair =>
    obtain ⟨h1, h2⟩ := ha
    rw [← h.rep] at h2
    have hne : s.enc.sources ≠ [] := by intro hx; apply h1; unfold Enc.window; rw [hx]; rfl
    obtain ⟨r, hr, e1⟩ := h.enc.generateRepair hc.width c.dbg hne h2
    simp only [Sys.step, e1, bind_ok_iff, pure_ok_iff] at hst
    obtain ⟨_, hh, rfl⟩ := hst
    cases hh
    exact ⟨_, A, h.enc.emitRep r hr hne rfl rfl rfl h2, h.cur, h.curLt,
      (by show s.enc.curRep + 1 = s.enc.nbSentRepairs + 1; rw [h.rep]), h.rate, h.ws⟩
  | setRate n =>
    simp only [Sys.step, Enc.setRate, bind_ok_iff, pure_ok_iff] at hst
    obtain ⟨_, ⟨_, _, rfl⟩, rfl⟩ := hst
    exact ⟨ems, A, h.param rfl rfl rfl rfl rfl rfl (Nat.pos_iff_ne_zero.1 ha) h.ws⟩
  | setWindow n =>
    simp only [Sys.step, Enc.setWindowSize, bind_ok_iff, pure_ok_iff] at hst
    obtain ⟨_, ⟨_, _, rfl⟩, rfl⟩ := hst
    exact ⟨ems, A, h.param rfl rfl rfl rfl rfl rfl h.rate (Nat.pos_iff_ne_zero.1 ha)⟩
  | setAdaptive b => cases hst; exact ⟨ems, A, h.param rfl rfl rfl rfl rfl rfl h.rate h.ws⟩
  | setSystematic b => cases hst; exact ⟨ems, A, h.param rfl rfl rfl rfl rfl rfl h.rate h.ws⟩
  | deliver i =>
    simp only [Sys.step] at hst
    split at hst
    · cases hst; exact ⟨ems, A, h⟩
    · simp only [bind_ok_iff, pure_ok_iff] at hst
      obtain ⟨_, _, rfl⟩ := hst
      exact ⟨ems, A, h.same rfl rfl⟩
  | ack j =>
    simp only [Sys.step] at hst
    split at hst
    · cases hst; exact ⟨ems, A, h⟩
    · next p hj =>
      rw [Enc.notify_of_ack c.F c.dbg s.enc (getPacketType_ack p)] at hst
      rcases readAck_total (writeAck p).flatten with ⟨k, n, hk, -⟩ | hk
      · rw [hk] at hst
        simp only [bind_ok_iff, pure_ok_iff] at hst
        obtain ⟨_, hh, rfl⟩ := hst
        cases hh
        have hE := h.enc.ack k.ids (e' := s.enc.gotAck.applyAck c.F k) (eraseIds_eq _ _ h.enc.srcSorted (readAck_sorted hk)) rfl rfl
        exact ⟨ems, _, hE, h.cur, h.curLt, h.rep, rate_pos hc.float s.enc k.nbPackets h.rate, h.ws⟩
      · rw [hk] at hst
        simp only [bind_ok_iff, pure_ok_iff] at hst
        obtain ⟨_, hh, rfl⟩ := hst
        cases hh
        exact ⟨ems, A, h.param rfl rfl rfl rfl rfl rfl h.rate h.ws⟩
  | genAck => cases hst; exact ⟨ems, A, h.same rfl rfl⟩
  | maybeAck => cases hst; exact ⟨ems, A, h.same rfl rfl⟩
  | setAckNb n =>
    simp only [Sys.step, bind_ok_iff, pure_ok_iff] at hst
    obtain ⟨_, _, rfl⟩ := hst
    exact ⟨ems, A, h.same rfl rfl⟩
  | setAckPeriod ms => cases hst; exact ⟨ems, A, h.same rfl rfl⟩

theorem anyReach_enc (hc : c.Ok) (h : AnyReach c io s) :
    ∀ data, Agree data s.committed → ∃ ems A, EncSys c data ems A s := by
  induction h with
  | init =>
    exact fun data _ => ⟨[], ∅, encInv_init, rfl, by show (0 : Nat) < 2 ^ 32; decide, rfl, by show Enc.init.rate ≠ 0; decide,
      by show Enc.init.windowSize ≠ 0; decide⟩
  | @step s s' a hr ha hst ih =>
    intro data hag
    rw [step_committed hst] at hag
    obtain ⟨ems, A, hI⟩ := ih data hag.prefix
    refine hI.step hc ha ?_ hst
    rintro d rfl
    exact hag _ d (by simp [Act.commits])

omit [Fact (0 < w)] in
/-- The decoder has received packets that the encoder emitted. -/
theorem anyReach_dec (h : AnyReach c io s) :
    ∃ acts, (NDec.init c.clk io).after c.gf c.dbg c.clk acts = .ok s.dec ∧
      ∀ p, .packet p ∈ acts → ∃ q ∈ s.enc.out, p = q.bytes := by
  have snoc : ∀ {acts : List DAct} {d d' : NDec} {a : DAct}, (NDec.init c.clk io).after c.gf c.dbg c.clk acts = .ok d →
      d.act c.gf c.dbg c.clk a = .ok d' → (NDec.init c.clk io).after c.gf c.dbg c.clk (acts ++ [a]) = .ok d' := by
    intro acts d d' a h1 h2
    unfold NDec.after at h1 ⊢
    rw [List.foldlM_append, bind_ok_iff]
    refine ⟨d, h1, ?_⟩
    rw [List.foldlM_cons, bind_ok_iff]
    exact ⟨d', h2, rfl⟩
  induction h with
  | init => exact ⟨[], rfl, by simp⟩
  | @step s s' a hr ha hst ih =>
    obtain ⟨acts, h1, h2⟩ := ih
    have hsub : ∀ q ∈ s.enc.out, q ∈ s'.enc.out := fun q hq => (step_out hst).subset hq
    have h2' : ∀ p, .packet p ∈ acts → ∃ q ∈ s'.enc.out, p = q.bytes := fun p hp =>
      let ⟨q, hq, e⟩ := h2 p hp; ⟨q, hsub q hq, e⟩
    have keep : s'.dec = s.dec → ∃ acts, (NDec.init c.clk io).after c.gf c.dbg c.clk acts = .ok s'.dec ∧
        ∀ p, .packet p ∈ acts → ∃ q ∈ s'.enc.out, p = q.bytes := fun e => ⟨acts, by rw [e]; exact h1, h2'⟩
    have more : ∀ b : DAct, (∀ p, b = .packet p → ∃ q ∈ s'.enc.out, p = q.bytes) → s.dec.act c.gf c.dbg c.clk b = .ok s'.dec →
        ∃ acts, (NDec.init c.clk io).after c.gf c.dbg c.clk acts = .ok s'.dec ∧
          ∀ p, .packet p ∈ acts → ∃ q ∈ s'.enc.out, p = q.bytes := by
      intro b hb hs
      refine ⟨acts ++ [b], snoc h1 hs, fun p hp => ?_⟩
      rcases List.mem_append.1 hp with hp | hp
      · exact h2' p hp
      · exact hb p (List.mem_singleton.1 hp).symm
    have h0 := hst
    cases a with
    | commit d =>
      simp only [Sys.step, bind_ok_iff, pure_ok_iff] at hst
      obtain ⟨_, _, rfl⟩ := hst; exact keep rfl
    | repair =>
      simp only [Sys.step, bind_ok_iff, pure_ok_iff] at hst
      obtain ⟨_, _, rfl⟩ := hst; exact keep rfl
    | setRate n =>
      simp only [Sys.step, bind_ok_iff, pure_ok_iff] at hst
      obtain ⟨_, _, rfl⟩ := hst; exact keep rfl
    | setWindow n =>
      simp only [Sys.step, bind_ok_iff, pure_ok_iff] at hst
      obtain ⟨_, _, rfl⟩ := hst; exact keep rfl
    | setAdaptive b => cases hst; exact keep rfl
    | setSystematic b => cases hst; exact keep rfl
    | deliver i =>
      simp only [Sys.step] at hst
      split at hst
      · cases hst; exact keep rfl
      · next p hp =>
        rw [bind_ok_iff] at hst
        obtain ⟨⟨d, r⟩, hd, hst⟩ := hst
        cases hst
        refine more (.packet p.bytes) (fun q hq => ?_) ?_
        · cases hq; exact ⟨p, List.mem_of_getElem? hp, rfl⟩
        · simp only [NDec.act, hd]; rfl
    | ack j =>
      simp only [Sys.step] at hst
      split at hst
      · cases hst; exact keep rfl
      · simp only [bind_ok_iff, pure_ok_iff] at hst
        obtain ⟨_, _, rfl⟩ := hst; exact keep rfl
    | genAck => cases hst; exact more .genAck (fun _ hh => by cases hh) rfl
    | maybeAck => cases hst; exact more .maybeAck (fun _ hh => by cases hh) rfl
    | setAckNb n =>
      simp only [Sys.step, bind_ok_iff, pure_ok_iff] at hst
      obtain ⟨d, hd, rfl⟩ := hst
      exact more (.setAckNb n) (fun _ hh => by cases hh) hd
    | setAckPeriod ms => cases hst; exact more (.setAckPeriod ms) (fun _ hh => by cases hh) rfl

end Netcode
