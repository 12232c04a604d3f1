import Verif.Spec.Late
import Verif.Proofs.Ordered
import Verif.Proofs.SysFacts

/-!
# The invariant of the pair when sources are late

The decoder is compared with one that does not order, for which `SysInv` holds.
-/

set_option linter.unusedSectionVars false

namespace Netcode

open OMap

variable {w : Nat}

/-- The system with the other decoder. -/
def Sys.hyb (s : Sys) (u : Dec) : Sys := { s with dec := { s.dec with det := u, data := u.log.map (·.data) } }

section
variable {c : Cfg w} {s : Sys} {u : Dec}

theorem hyb_self (s : Sys) (h : s.dec.data = s.dec.det.log.map (·.data)) : s.hyb s.dec.det = s := by
  unfold Sys.hyb; rw [← h]

theorem maybeAckWith_hyb (clk : Clock) (d : NDec) (u : Dec) (D : List (List Byte)) (held : List Nat) :
    ({ d with det := u, data := D } : NDec).maybeAckWith clk held =
      { d.maybeAckWith clk held with det := u, data := D } := by
  unfold NDec.maybeAckWith
  simp only
  split
  · rfl
  · split
    · split <;> rfl
    · rfl

/-- Calls that do not concern `detail::decoder`. -/
theorem step_hyb (a : Act) (ha : ∀ i, a ≠ .deliver i) (hk : u.sources = s.dec.det.sources) {s1 : Sys}
    (h : (s.hyb u).step c a = .ok s1) :
    ∃ s2, s.step c a = .ok s2 ∧ s1 = s2.hyb u ∧ s2.dec.det = s.dec.det ∧ s2.dec.data = s.dec.data ∧ s2.hist = s.hist := by
  cases a with
  | deliver i => exact absurd rfl (ha i)
  | commit d => simp only [Sys.step, bind_ok_iff] at h ⊢; obtain ⟨e, h1, h⟩ := h; cases h; exact ⟨_, ⟨e, h1, rfl⟩, rfl, rfl, rfl, rfl⟩
  | repair => simp only [Sys.step, bind_ok_iff] at h ⊢; obtain ⟨e, h1, h⟩ := h; cases h; exact ⟨_, ⟨e, h1, rfl⟩, rfl, rfl, rfl, rfl⟩
  | setRate n => simp only [Sys.step, bind_ok_iff] at h ⊢; obtain ⟨e, h1, h⟩ := h; cases h; exact ⟨_, ⟨e, h1, rfl⟩, rfl, rfl, rfl, rfl⟩
  | setWindow n => simp only [Sys.step, bind_ok_iff] at h ⊢; obtain ⟨e, h1, h⟩ := h; cases h; exact ⟨_, ⟨e, h1, rfl⟩, rfl, rfl, rfl, rfl⟩
  | setAdaptive b => cases h; exact ⟨_, rfl, rfl, rfl, rfl, rfl⟩
  | setSystematic b => cases h; exact ⟨_, rfl, rfl, rfl, rfl, rfl⟩
  | ack j =>
    simp only [Sys.step] at h ⊢
    rw [show (s.hyb u).dec.out = s.dec.out from rfl] at h
    split at h
    · cases h; exact ⟨s, rfl, rfl, rfl, rfl, rfl⟩
    · simp only [bind_ok_iff] at h ⊢
      obtain ⟨e, h1, h⟩ := h; cases h; exact ⟨_, ⟨e, h1, rfl⟩, rfl, rfl, rfl, rfl⟩
  | genAck =>
    cases h
    refine ⟨_, rfl, ?_, rfl, rfl, rfl⟩
    unfold Sys.hyb NDec.generateAck
    simp only
    rw [hk]; rfl
  | maybeAck =>
    cases h
    have hf := maybeAckWith_frame c.clk s.dec s.dec.det.sources.keys
    refine ⟨_, rfl, ?_, hf.1, hf.2, rfl⟩
    unfold Sys.hyb NDec.maybeAck
    simp only
    rw [hk, maybeAckWith_hyb]
  | setAckNb n =>
    simp only [Sys.step, NDec.setAckNb, bind_ok_iff] at h ⊢
    obtain ⟨d, ⟨_, h1, h2⟩, h⟩ := h
    cases h2; cases h
    exact ⟨_, ⟨_, ⟨(), h1, rfl⟩, rfl⟩, rfl, rfl, rfl, rfl⟩
  | setAckPeriod ms => cases h; exact ⟨_, rfl, rfl, rfl, rfl, rfl⟩

end

variable [Fact (0 < w)]

structure LateInv (c : Cfg w) (data : Nat → List Byte) (ems : List Em) (A : Set Nat) (ρ L : Nat) (W K : Set Nat) (s : Sys)
    (u : Dec) : Prop where
  inv : SysInv c false data ems A ρ L W K (s.hyb u)
  ord : Ord L s.dec.det u
  held : ∀ ev ∈ s.dec.det.log, ∀ x ∈ ev.held, x ∈ K
  dataLog : s.dec.data = s.dec.det.log.map (·.data)

section
variable {c : Cfg w} {data : Nat → List Byte} {ems : List Em} {A : Set Nat} {ρ L : Nat} {W K : Set Nat} {s : Sys} {u : Dec}

theorem DInv.low {gf : GF w} {P : Nat → Nat → Prop} (h : DInv gf data P ρ L W K u) : Low L u.lastId u :=
  ⟨rfl, fun x hx => ((h.core.has_src x).1 ((has_iff _ _).2 hx)).2,
    fun x hx => h.core.lo x ((h.core.misKeys x).1 hx).1,
    fun p hp x hx => h.core.lo x ((h.core.rep p hp).2.2.1 x hx).1,
    fun p hp => (h.core.rep p hp).2.1.sorted, h.core.repSorted⟩

theorem DInv.lastD {gf : GF w} {P : Nat → Nat → Prop} (h : DInv gf data P ρ L W K u) : L = u.lastId.getD 0 := by
  rcases h.last with ⟨h1, h2, _⟩ | h1
  · rw [h1, h2]; rfl
  · rw [h1]; rfl

theorem SysInv.logFine (h : SysInv c false data ems A ρ L W K s) : LogFine s.dec.det.log := by
  refine ⟨h.handed_nodup, fun e he => ?_⟩
  have h1 := h.handed_lt (List.mem_map_of_mem he)
  have := h.curLt
  omega

theorem lateInv_init (c : Cfg w) (data : Nat → List Byte) :
    LateInv c data [] ∅ 0 0 ∅ ∅ (Sys.init c.clk true) (Dec.init false) := by
  refine ⟨sysInv_init c false data, ?_, fun ev hev => (by cases hev), rfl⟩
  refine ⟨⟨⟨rfl, rfl, rfl, rfl, rfl, rfl, rfl⟩, rfl⟩, rfl, List.Pairwise.nil, fun x hx => (by cases hx), fun x hx => (by cases hx),
    List.Pairwise.nil, fun x hx => (by cases hx), fun x hx => (by cases hx), fun x v hx => (by cases hx), Nat.le_refl _, ?_⟩
  intro y _ hy
  exact absurd hy (Nat.not_lt_zero y)

/-- A packet: the decoder that does not order determines what the other does. -/
theorem LateInv.deliverVia (h : LateInv c data ems A ρ L W K s u) {i : Nat} (q : List Byte) {s1 : Sys}
    {ems' : List Em} {A' : Set Nat} {ρ' L' : Nat} {W' K' : Set Nat}
    (h1 : ((do
      let (d, x) ← (s.hyb u).dec.notify c.gf c.dbg c.clk q
      return { s.hyb u with dec := d, hist := (s.hyb u).hist ++ [i], errs := (s.hyb u).errs + errCount x } : Out Sys) = .ok s1)) (hI : SysInv c false data ems' A' ρ' L' W' K' s1) (hL : L ≤ L')
    (hK : K ⊆ K') :
    ∃ s2, ((do
      let (d, x) ← s.dec.notify c.gf c.dbg c.clk q
      return { s with dec := d, hist := s.hist ++ [i], errs := s.errs + errCount x } : Out Sys) = .ok s2) ∧ LateInv c data ems' A' ρ' L' W' K' s2 s1.dec.det ∧
      s.dec.det.log <+: s2.dec.det.log := by
  simp only [bind_ok_iff] at h1 ⊢
  obtain ⟨⟨d1, r⟩, hn, h1⟩ := h1
  cases h1
  have hF := hI.logFine
  have hlow : Low L u.lastId u := h.inv.dinv.low
  have hD : L = u.lastId.getD 0 := h.inv.dinv.lastD
  have hD' : L' = d1.det.lastId.getD 0 := hI.dinv.lastD
  have herr : errCount r = 0 := by
    have h1 : (s.hyb u).errs + errCount r = 0 := hI.errs
    omega
  -- what is left to show once both decoders have handled the packet
  have key : ∀ (g : NDec) (n : Nat) (d' : Dec), g.det = s.dec.det → g.data = s.dec.data → g.ackIds = s.dec.ackIds → g.ackPackets < 2 ^ 16 →
      g.out = s.dec.out → s.dec.notify c.gf c.dbg c.clk q = .ok (g.afterDet c.clk d', .ok n) →
      s.dec.det.log <+: d'.log → Ord L' d' d1.det →
      (∀ ev ∈ d'.log.drop s.dec.det.log.length, ∀ x ∈ ev.held, x ∈ s.dec.det.sources.keys ∨ x ∈ d'.sources.keys) →
      ∃ s2, (∃ a, s.dec.notify c.gf c.dbg c.clk q = .ok a ∧
          Except.ok (ε := Fault) { s with dec := a.1, hist := s.hist ++ [i], errs := s.errs + errCount a.2 } = .ok s2) ∧
        LateInv c data ems' A' ρ' L' W' K' s2 d1.det ∧ s.dec.det.log <+: s2.dec.det.log := by
    intro g n d' g1 g2 g3 g4 g5 hN hp ho hev
    have hheld : ∀ ev ∈ d'.log, ∀ x ∈ ev.held, x ∈ K' := by
      intro ev he x hx
      have hsplit : d'.log = s.dec.det.log ++ d'.log.drop s.dec.det.log.length := by
        obtain ⟨t, ht⟩ := hp
        rw [← ht]; simp
      rw [hsplit, List.mem_append] at he
      rcases he with he | he
      · exact hK (h.held ev he x hx)
      · rcases hev ev he x hx with hx | hx
        · rw [← h.ord.like.same.sources] at hx
          exact hK (h.inv.dinv.core.src_keys x hx)
        · rw [← ho.like.same.sources] at hx
          exact hI.dinv.core.src_keys x hx
    have hA : AckInv K' g := ⟨by rw [g3]; exact h.inv.acks.sorted, by rw [g3]; exact (h.inv.acks.mono hK).ids, g4, by
      rw [g5]; exact (h.inv.acks.mono hK).out⟩
    obtain ⟨a1, a2, a3⟩ := afterDet_ok c.clk g d' hA (by rw [g1]; exact hp) hheld (by rw [g2, g1]; exact h.dataLog)
    refine ⟨_, ⟨_, hN, rfl⟩, ⟨?_, ?_, ?_, ?_⟩, ?_⟩
    · have := hI.withDec (d := { g.afterDet c.clk d' with det := d1.det, data := d1.det.log.map (·.data) }) rfl hI.dataLog.symm
        ⟨a1.sorted, a1.ids, a1.packets, a1.out⟩
      rw [herr] at this
      exact this
    · show Ord L' (g.afterDet c.clk d').det d1.det
      rw [a2]; exact ho
    · show ∀ ev ∈ (g.afterDet c.clk d').det.log, _
      rw [a2]; exact hheld
    · show (g.afterDet c.clk d').data = (g.afterDet c.clk d').det.log.map _
      rw [a2, a3]
    · show _ <+: (g.afterDet c.clk d').det.log
      rw [a2]; exact hp
  cases notify_got hn with
  | other g1 g2 =>
    have hp : q ≠ [] := fun e => by rw [e] at hn; exact notify_nil _ _ _ _ _ hn
    rw [NDec.notify_of_other c.gf c.dbg c.clk _ hp (fun e => g2 (head_of_type e)) (fun e => g1 (head_of_type e))] at hn
    cases hn
    cases herr
  | badSource g1 g2 =>
    rw [NDec.notify_of_source _ _ _ _ (by rw [type_of_head g1]; rfl), g2] at hn
    cases hn
    cases herr
  | badRepair g1 g2 =>
    rw [NDec.notify_of_repair _ _ _ _ (by rw [type_of_head g1]; rfl), g2] at hn
    cases hn
    cases herr
  | source sr n det' g1 g2 ho =>
    have hdet : ((s.hyb u).dec.gotSource.afterDet c.clk det').det = det' := afterDet_det (onSource_ext ho).log
    rw [hdet] at hF hD' key ⊢
    have ho' : u.onSource c.gf c.dbg sr = .ok det' := ho
    obtain ⟨d', k1, k2⟩ := onSource_ord hF h.ord hlow hD ho' (List.prefix_refl _)
    have hLL : L' = L := by
      have := onSource_low ho' hD hlow
      rw [hD', this.last, ← hD]
    rw [hLL] at key
    have hN : s.dec.notify c.gf c.dbg c.clk q = .ok (s.dec.gotSource.afterDet c.clk d', .ok n) := by
      rw [NDec.notify_of_source _ _ _ _ (by rw [type_of_head g1]; rfl), g2]
      simp only
      rw [k1]; rfl
    rw [hLL]
    exact key s.dec.gotSource n d' rfl rfl rfl (Nat.mod_lt _ (by decide)) rfl hN (onSource_ext k1).log k2
      (fun ev he x hx => Or.inr ((onSource_grow k1).held ev he x hx))
  | repair rr n det' g1 g2 ho =>
    have hdet : ((s.hyb u).dec.gotRepair.afterDet c.clk det').det = det' := afterDet_det (onRepair_ext ho).log
    rw [hdet] at hF hD' key ⊢
    have ho' : u.onRepair c.gf c.dbg rr = .ok det' := ho
    obtain ⟨d', k1, k2⟩ := onRepair_ord hF h.ord hlow (readRepair_sorted g2)
      (fun f _ hl => by rw [hl] at hD'; rw [show f = L' from hD'.symm]; exact hL)
      (by rw [← h.ord.like.same.sources]; exact h.inv.dinv.core.srcSorted) ho' (List.prefix_refl _)
    have k3 : Ord L' d' det' := by
      rcases k2 with ⟨e, k2⟩ | ⟨f, e, k2⟩
      · rw [e, ← hD] at hD'; rw [hD']; exact k2
      · rw [e] at hD'; rw [hD']; exact k2
    have hN : s.dec.notify c.gf c.dbg c.clk q = .ok (s.dec.gotRepair.afterDet c.clk d', .ok n) := by
      rw [NDec.notify_of_repair _ _ _ _ (by rw [type_of_head g1]; rfl), g2]
      simp only
      rw [k1]; rfl
    exact key s.dec.gotRepair n d' rfl rfl rfl (Nat.mod_lt _ (by decide)) rfl hN (onRepair_ext k1).log k3 (onRepair_held k1)

theorem LateInv.deliver (h : LateInv c data ems A ρ L W K s u) {i : Nat} {p : EPkt} (hi : s.enc.out[i]? = some p) {s1 : Sys}
    {ems' : List Em} {A' : Set Nat} {ρ' L' : Nat} {W' K' : Set Nat}
    (h1 : (s.hyb u).step c (.deliver i) = .ok s1) (hI : SysInv c false data ems' A' ρ' L' W' K' s1) (hL : L ≤ L')
    (hK : K ⊆ K') :
    ∃ s2, s.step c (.deliver i) = .ok s2 ∧ LateInv c data ems' A' ρ' L' W' K' s2 s1.dec.det ∧
      s.dec.det.log <+: s2.dec.det.log := by
  simp only [Sys.step] at h1 ⊢
  rw [show (s.hyb u).enc.out = s.enc.out from rfl, hi] at h1
  rw [hi]
  exact h.deliverVia p.bytes h1 hI hL hK

/-- A repair that may arrive may arrive at the decoder without ordering as well. -/
theorem LateInv.mayArrive (h : LateInv c data ems A ρ L W K s u) {i : Nat} {r : ERepair} (ht : s.MayArrive i r) :
    (s.hyb u).MayArrive i r := by
  rcases ht with ht | ht
  · exact .inl ht
  · refine .inr ?_
    show u.Harmless r.id r.ids
    unfold Dec.Harmless at ht ⊢
    rw [← h.ord.like.same.repairs, ← h.ord.like.same.lastId, ← h.ord.like.same.sources] at ht
    exact ht

/-- Every step keeps the invariant; the other decoder does the same step. -/
theorem LateInv.step' (hc : c.Ok) (h : LateInv c data ems A ρ L W K s u) (hag : Agree data s.committed) (a : Act)
    (ha : AllowedLate c s a) (hd : ∀ d, a = .commit d → data s.committed.length = d) :
    ∃ s' u' new A' ρ' L' W' K', s.step c a = .ok s' ∧ LateInv c data (ems ++ new) A' ρ' L' W' K' s' u' ∧
      s.dec.det.log <+: s'.dec.det.log ∧ K ⊆ K' ∧ ∃ s1, (s.hyb u).step c a = .ok s1 ∧ s1.dec.det = u' := by
  by_cases hdel : ∃ i, a = .deliver i
  · obtain ⟨i, rfl⟩ := hdel
    cases hi : s.enc.out[i]? with
    | none =>
      refine ⟨s, u, [], A, ρ, L, W, K, ?_, by rw [List.append_nil]; exact h, List.prefix_refl _, subset_rfl, s.hyb u, ?_, rfl⟩
      · simp only [Sys.step]; rw [hi]; rfl
      · simp only [Sys.step]; rw [show (s.hyb u).enc.out = s.enc.out from rfl, hi]; rfl
    | some p =>
      cases p with
      | source sr =>
        have ht : s.InTimeLate c.gf i := by simpa [AllowedLate, hi] using ha
        have ht' : (s.hyb u).InTime c.gf i := by
          rcases ht with ht | ht | ht
          · exact .inl ht
          · exact .inr (.inr ⟨h.ord.like.mode, .inl ht⟩)
          · refine .inr (.inr ⟨h.ord.like.mode, .inr ?_⟩)
            intro sr' hsr'
            have := ht sr' hsr'
            unfold Dec.NoClash at this ⊢
            rw [← h.ord.like.same.repairs, ← h.ord.like.same.missing] at this
            exact this
        obtain ⟨s1, K', x, h1, h2, h3, _, _, h4, h5, _⟩ := h.inv.deliverSource hc hi ht'
        obtain ⟨s2, g1, g2, g3⟩ := h.deliver hi h1 h2 (Nat.le_refl _) h5
        exact ⟨s2, _, [], A, ρ, L, W, K', g1, by rw [List.append_nil]; exact g2, g3, h5, _, h1, rfl⟩
      | repair r =>
        have ht := ha
        simp only [AllowedLate, hi, Allowed] at ht
        obtain ⟨s1, ρ', L', W', K', h1, h2, h3, _, _, h4, h5, h6, _⟩ := h.inv.mayArrive hc hag.getD hi (h.mayArrive ht.1) ht.2.1 ht.2.2
        obtain ⟨s2, g1, g2, g3⟩ := h.deliver hi h1 h2 h6 h5
        exact ⟨s2, _, [], A, ρ', L', W', K', g1, by rw [List.append_nil]; exact g2, g3, h5, _, h1, rfl⟩
  · have hne : ∀ i, a ≠ .deliver i := fun i e => hdel ⟨i, e⟩
    have ha' : Allowed c (s.hyb u) a := by
      cases a with
      | deliver i => exact absurd rfl (hne i)
      | _ => exact ha
    obtain ⟨s1, new, A', ρ', L', W', K', h1, h2, h3, h4⟩ := h.inv.step hc hag a ha' hd
    obtain ⟨s2, g1, rfl, g3, g4, g5⟩ := step_hyb a hne h.ord.like.same.sources h1
    have hL : L' = L := by
      have e1 : L = u.lastId.getD 0 := h.inv.dinv.lastD
      have e2 : L' = u.lastId.getD 0 := h2.dinv.lastD
      rw [e1, e2]
    subst hL
    refine ⟨s2, u, new, A', ρ', L', W', K', g1, ⟨h2, by rw [g3]; exact h.ord, ?_, by rw [g3, g4]; exact h.dataLog⟩,
      by rw [g3], h4, _, h1, rfl⟩
    rw [g3]
    exact fun ev he x hx => h4 (h.held ev he x hx)

theorem LateInv.step (hc : c.Ok) (h : LateInv c data ems A ρ L W K s u) (hag : Agree data s.committed) (a : Act)
    (ha : AllowedLate c s a) (hd : ∀ d, a = .commit d → data s.committed.length = d) :
    ∃ s' u' new A' ρ' L' W' K', s.step c a = .ok s' ∧ LateInv c data (ems ++ new) A' ρ' L' W' K' s' u' ∧
      s.dec.det.log <+: s'.dec.det.log ∧ K ⊆ K' := by
  obtain ⟨s', u', new, A', ρ', L', W', K', h1, h2, h3, h4, _⟩ := h.step' hc hag a ha hd
  exact ⟨s', u', new, A', ρ', L', W', K', h1, h2, h3, h4⟩

theorem lateReach_inv (hc : c.Ok) (h : ReachLate c true s) :
    ∀ data, Agree data s.committed → ∃ ems A ρ L W K u, LateInv c data ems A ρ L W K s u := by
  induction h with
  | init => exact fun data _ => ⟨[], ∅, 0, 0, ∅, ∅, _, lateInv_init c data⟩
  | @step s s' a hr ha hst ih =>
    intro data hag
    have hcom := step_committed hst
    rw [hcom] at hag
    have hD : ∀ d, a = .commit d → data s.committed.length = d := by
      rintro d rfl
      exact hag _ d (by simp [Act.commits])
    obtain ⟨ems, A, ρ, L, W, K, u, hI⟩ := ih data hag.prefix
    obtain ⟨s2, u', new, A', ρ', L', W', K', h1, h2, _⟩ := hI.step hc hag.prefix a ha hD
    rw [hst] at h1
    cases h1
    exact ⟨_, _, _, _, _, _, _, h2⟩

theorem LateInv.logData (h : LateInv c data ems A ρ L W K s u) : ∀ ev ∈ s.dec.det.log, ev.data = data ev.id := by
  intro ev hev
  obtain ⟨e, he, h1, h2⟩ := h.ord.logSub ev hev
  rw [← h1, ← h2]
  exact h.inv.dinv.log.logData e he

theorem LateInv.handed_known (h : LateInv c data ems A ρ L W K s u) {x : Nat} (hx : x ∈ s.dec.det.handed) : x ∈ K := by
  obtain ⟨ev, hev, rfl⟩ := List.mem_map.1 hx
  obtain ⟨e, he, h1, h2⟩ := h.ord.logSub ev hev
  rw [← h1]
  exact h.inv.handed_known (List.mem_map_of_mem he)

theorem LateInv.handed_lt (h : LateInv c data ems A ρ L W K s u) {x : Nat} (hx : x ∈ s.dec.det.handed) :
    x < s.committed.length := h.inv.knownLt x (h.handed_known hx)

theorem LateInv.sublist (h : LateInv c data ems A ρ L W K s u) (hd : data = comData s) :
    s.dec.data.Sublist s.committed := by
  have e : s.dec.data = s.dec.det.handed.map data := by
    rw [h.dataLog]
    unfold Dec.handed
    rw [List.map_map]
    exact List.map_congr_left (fun ev hev => h.logData ev hev)
  rw [e, hd]
  conv_rhs => rw [← comData_map s]
  exact List.Sublist.map _ (sublist_range h.ord.logSorted (fun x hx => h.handed_lt hx))

theorem LateInv.known_of_knows (h : LateInv c data ems A ρ L W K s u) {x : Nat} (hx : s.dec.det.Knows x) : x ∈ K := by
  rcases hx with hx | hx
  · exact h.handed_known hx
  · unfold Dec.Holds at hx
    rw [← h.ord.like.same.sources] at hx
    exact h.inv.dinv.core.src_keys x hx

theorem LateInv.held_of_known (h : LateInv c data ems A ρ L W K s u) {x : Nat} (hx : x ∈ K) (hL : L ≤ x) :
    s.dec.det.sources.get? x = some ⟨x, data x⟩ := by
  rw [← h.ord.like.same.sources]
  exact h.inv.dinv.core.get_src hx hL

theorem LateInv.knows_of_known (h : LateInv c data ems A ρ L W K s u) {x : Nat} (hx : x ∈ K) (hL : L ≤ x) :
    s.dec.det.Knows x := Or.inr ((get?_isSome_iff _ _).1 ⟨_, h.held_of_known hx hL⟩)

theorem head_le_of_sorted {l : List Nat} (hs : Sorted l) {f x : Nat} (hf : l.head? = some f) (hx : x ∈ l) : f ≤ x := by
  cases l with
  | nil => cases hx
  | cons a t =>
    obtain rfl : a = f := by simpa using hf
    rcases List.mem_cons.1 hx with rfl | hx
    · exact Nat.le_refl _
    · exact Nat.le_of_lt ((List.pairwise_cons.1 hs).1 _ hx)

/-- A repair, once it brings everything it lists. -/
theorem LateInv.repairBrings (hc : c.Ok) (h : LateInv c (comData s) ems A ρ L W K s u) {i : Nat} {r : ERepair}
    (hi : s.enc.out[i]? = some (.repair r)) (hnew : ∀ j ∈ s.hist, s.isRepair j → j ≤ i) (hwire : WireIds r.ids)
    (hfit : ∀ x ∈ r.ids, SizeFits c.gf (coefficient w r.id x) (BitVec.ofNat 16 (s.committed.getD x []).length))
    (hb : ∀ f (K' : Set Nat), r.ids.head? = some f → L ≤ f →
      (∀ x, i ∉ s.hist → (∀ y ∈ r.ids, y ∉ K → y = x) → K' = K ∪ {x | x ∈ r.ids}) →
      (∀ U, i ∉ s.hist → Sorted U → (∀ x, x ∈ U ↔ x ∈ r.ids ∧ x ∉ K) →
        (rowsFor f (s.hyb u).dec.det.repairs r.id r.ids).length = U.length →
        Independent c.gf (rowsFor f (s.hyb u).dec.det.repairs r.id r.ids) U → K' = K ∪ {x | x ∈ r.ids}) →
      K' = K ∪ {x | x ∈ r.ids}) :
    ∃ s', s.step c (.deliver i) = .ok s' ∧ ∀ y ∈ r.ids, s'.dec.det.HasData y (s.committed.getD y []) := by
  obtain ⟨s1, K', f, h1, h2, h3, _, _, h4, h5, h6, h7, h8, h9, _⟩ :=
    h.inv.deliverRepair hc (comData_agree s).getD hi hnew hwire hfit
  have hKK : K ⊆ K' := by
    rcases h5 with h5 | h5
    · rw [h5]
    · rw [h5]; exact Set.subset_union_left
  obtain ⟨s2, g1, g2, g3⟩ := h.deliver hi h1 h2 h6 hKK
  have hK := hb f K' h7 h6 h8 h9
  refine ⟨s2, g1, fun y hy => Or.inr (g2.held_of_known ?_ (head_le_of_sorted hwire.1 h7 hy))⟩
  rw [hK]
  exact Or.inr hy

theorem LateInv.outdated (h : LateInv c data ems A ρ L W K s u) {y : Nat} (hy : y < L) : s.dec.det.Outdated y := by
  obtain ⟨l, h1, h2⟩ := h.inv.outdated hy
  refine ⟨l, ?_, h2⟩
  rw [← h1]; exact h.ord.like.same.lastId.symm

theorem allowed_of_late (hio : s.dec.det.inOrder = false) {a : Act} (h : AllowedLate c s a) : Allowed c s a := by
  cases a with
  | deliver i =>
    cases hi : s.enc.out[i]? with
    | none => simp [Allowed, hi]
    | some p =>
      cases p with
      | source sr =>
        simp only [AllowedLate, hi] at h
        simp only [Allowed, hi]
        rcases h with h | h | h
        · exact .inl h
        · exact .inr (.inr ⟨hio, .inl h⟩)
        · exact .inr (.inr ⟨hio, .inr h⟩)
      | repair r => simpa only [AllowedLate, hi] using h
  | _ => exact h

theorem reach_of_late (hc : c.Ok) (h : ReachLate c false s) : Reach c false s := by
  induction h with
  | init => exact .init
  | @step s s' a hr ha hst ih =>
    obtain ⟨ems, A, ρ, L, W, K, hI⟩ := reach_inv hc ih _ (comData_agree s)
    exact .step ih (allowed_of_late hI.io ha) hst

omit [Fact (0 < w)] in
theorem late_of_allowed {a : Act} (h : Allowed c s a) : AllowedLate c s a := by
  cases a with
  | deliver i =>
    cases hi : s.enc.out[i]? with
    | none => simpa only [AllowedLate, hi] using h
    | some p =>
      cases p with
      | source sr =>
        simp only [AllowedLate, hi]
        simp only [Allowed, hi] at h
        rcases h with h | h | h
        · exact .inl h
        · exact .inr (.inl ⟨0, fun j h1 h2 h3 => absurd h3 (h j h1 h2)⟩)
        · exact .inr h.2
      | repair r => simpa only [AllowedLate, hi] using h
  | _ => exact h

omit [Fact (0 < w)] in
theorem late_of_reach {io : Bool} (h : Reach c io s) : ReachLate c io s := by
  induction h with
  | init => exact .init
  | step _ ha hst ih => exact .step ih (late_of_allowed ha) hst

end

end Netcode
