import Verif.Proofs.EncInv
import Verif.Proofs.DecRepair
import Verif.Spec.Schedule
import Mathlib.Data.Rat.Floor
import Mathlib.Algebra.Order.Floor.Ring

/-!
# The invariant of the encoder/decoder pair
-/

set_option linter.unusedSectionVars false

namespace Netcode

open OMap

variable {w : Nat}

/-! ## Adaptive rate -/

theorem lossRate_le_one {F : F64} (hF : F.Ok) (sent nb : Nat) (hs : 0 < sent) : lossRate F sent nb ≤ 1 := by
  unfold lossRate
  rw [← hF.one]
  apply hF.mono
  have : (0 : Rat) < (sent : Rat) := by exact_mod_cast hs
  rw [div_le_one this]
  have : (0 : Rat) ≤ (nb : Rat) := by exact_mod_cast Nat.zero_le nb
  linarith

theorem rateForLoss_pos {F : F64} (hF : F.Ok) (loss : Rat) (h : loss ≤ 1) : 1 ≤ rateForLoss F loss := by
  unfold rateForLoss
  split
  · decide
  · next hc =>
    have h0 : (1 : Rat) / 100 ≤ loss := le_trans hF.cent (not_lt.1 hc)
    have hpos : (0 : Rat) < loss := by linarith
    have h1 : (1 : Rat) ≤ 1 / loss := by rw [le_div_iff₀ hpos]; linarith
    have h2 : (1 : Rat) ≤ F.rnd (1 / loss) := by
      have := hF.mono _ _ h1
      rwa [hF.one] at this
    have h3 : (1 / 2 : Rat) ≤ F.rnd (F.rnd (1 / loss) / 2) := by
      have := hF.mono (1 / 2) (F.rnd (1 / loss) / 2) (by linarith)
      rwa [hF.half] at this
    have h4 : (0 : Int) < (F.rnd (F.rnd (1 / loss) / 2)).ceil := by
      rw [Rat.lt_ceil_iff]
      push_cast
      linarith
    omega

theorem rateForLoss_le {F : F64} (hF : F.Ok) (loss : Rat) : rateForLoss F loss ≤ 50 := by
  unfold rateForLoss
  split
  · decide
  · next hc =>
    have h0 : (1 : Rat) / 100 ≤ loss := le_trans hF.cent (not_lt.1 hc)
    have hpos : (0 : Rat) < loss := by linarith
    have h1 : 1 / loss ≤ (100 : Rat) := by rw [div_le_iff₀ hpos]; linarith
    have h2 : F.rnd (1 / loss) ≤ 100 := by
      have := hF.mono _ _ h1
      rwa [hF.hundred] at this
    have h3 : F.rnd (F.rnd (1 / loss) / 2) ≤ 50 := by
      have := hF.mono (F.rnd (1 / loss) / 2) 50 (by linarith)
      rwa [hF.fifty] at this
    have h4 : (F.rnd (F.rnd (1 / loss) / 2)).ceil ≤ 50 := by
      rw [Rat.ceil_le_iff]
      push_cast
      exact h3
    omega

theorem rateForLoss_anti {F : F64} (hF : F.Ok) (l1 l2 : Rat) (h : l1 ≤ l2) : rateForLoss F l2 ≤ rateForLoss F l1 := by
  by_cases hc : l1 < F.rnd (1 / 100)
  · have : rateForLoss F l1 = 50 := by unfold rateForLoss; rw [if_pos hc]
    rw [this]; exact rateForLoss_le hF l2
  · have hc2 : ¬ l2 < F.rnd (1 / 100) := fun h2 => hc (lt_of_le_of_lt h h2)
    unfold rateForLoss
    rw [if_neg hc, if_neg hc2]
    have h0 : (1 : Rat) / 100 ≤ l1 := le_trans hF.cent (not_lt.1 hc)
    have hpos : (0 : Rat) < l1 := by linarith
    have h1 : 1 / l2 ≤ 1 / l1 := one_div_le_one_div_of_le hpos h
    have h2 := hF.mono _ _ h1
    have h3 := hF.mono (F.rnd (1 / l2) / 2) (F.rnd (1 / l1) / 2) (by linarith)
    have h4 : (F.rnd (F.rnd (1 / l2) / 2)).ceil ≤ (F.rnd (F.rnd (1 / l1) / 2)).ceil := by
      rw [Rat.ceil_le_iff]
      exact le_trans h3 (Rat.ceil_le_iff.1 (le_refl _))
    omega

/-! ## Acks -/

theorem foldl_setInsert_mem (l acc : List Nat) (x : Nat) : x ∈ l.foldl setInsert acc ↔ x ∈ acc ∨ x ∈ l := by
  induction l generalizing acc with
  | nil => simp
  | cons a t ih => rw [List.foldl_cons, ih, mem_setInsert]; simp only [List.mem_cons]; tauto

theorem foldl_setInsert_sorted (l acc : List Nat) (h : Sorted acc) : Sorted (l.foldl setInsert acc) := by
  induction l generalizing acc with
  | nil => exact h
  | cons a t ih => rw [List.foldl_cons]; exact ih _ (sorted_setInsert acc h a)

/-- The acks emitted only list known sources. -/
structure AckInv (K : Set Nat) (d : NDec) : Prop where
  sorted : Sorted d.ackIds
  ids : ∀ x ∈ d.ackIds, x ∈ K
  packets : d.ackPackets < 2 ^ 16
  out : ∀ a ∈ d.out, Sorted a.ids ∧ (∀ x ∈ a.ids, x ∈ K) ∧ a.nbPackets < 2 ^ 16

theorem AckInv.mono {K K' : Set Nat} {d : NDec} (h : AckInv K d) (hK : K ⊆ K') : AckInv K' d :=
  ⟨h.sorted, fun x hx => hK (h.ids x hx), h.packets, fun a ha => ⟨(h.out a ha).1, fun x hx => hK ((h.out a ha).2.1 x hx), (h.out a ha).2.2⟩⟩

theorem AckInv.congr {K : Set Nat} {d d' : NDec} (h : AckInv K d) (h1 : d'.ackIds = d.ackIds)
    (h2 : d'.ackPackets < 2 ^ 16) (h3 : d'.out = d.out) : AckInv K d' :=
  ⟨by rw [h1]; exact h.sorted, by rw [h1]; exact h.ids, h2, by rw [h3]; exact h.out⟩

theorem generateAckWith_inv {K : Set Nat} {d : NDec} (h : AckInv K d) (held : List Nat) (hh : ∀ x ∈ held, x ∈ K) :
    AckInv K (d.generateAckWith held) := by
  refine ⟨List.Pairwise.nil, by simp [NDec.generateAckWith], by show (0 : Nat) < 2 ^ 16; decide, ?_⟩
  intro a ha
  rcases List.mem_append.1 ha with ha | ha
  · exact h.out a ha
  · rw [List.mem_singleton] at ha
    subst ha
    refine ⟨foldl_setInsert_sorted _ _ h.sorted, ?_, h.packets⟩
    intro x hx
    rw [foldl_setInsert_mem] at hx
    exact hx.elim (h.ids x) (hh x)

theorem maybeAckWith_inv {K : Set Nat} {d : NDec} (h : AckInv K d) (clk : Clock) (held : List Nat)
    (hh : ∀ x ∈ held, x ∈ K) : AckInv K (d.maybeAckWith clk held) := by
  have hg := generateAckWith_inv h held hh
  unfold NDec.maybeAckWith
  split
  · exact hg.congr rfl hg.packets rfl
  · split
    · simp only
      split
      · have h' : AckInv K { d with ticks := d.ticks + 1 } := h.congr rfl h.packets rfl
        have hg' := generateAckWith_inv h' held hh
        exact hg'.congr rfl hg'.packets rfl
      · exact h.congr rfl h.packets rfl
    · exact h

theorem maybeAckWith_frame (clk : Clock) (d : NDec) (held : List Nat) :
    (d.maybeAckWith clk held).det = d.det ∧ (d.maybeAckWith clk held).data = d.data := by
  unfold NDec.maybeAckWith
  split
  · exact ⟨rfl, rfl⟩
  · split
    · simp only
      split <;> exact ⟨rfl, rfl⟩
    · exact ⟨rfl, rfl⟩

theorem handle_fold {K : Set Nat} (clk : Clock) (evs : List Event) (d : NDec) (h : AckInv K d)
    (hh : ∀ ev ∈ evs, ∀ x ∈ ev.held, x ∈ K) :
    AckInv K (evs.foldl (NDec.handleSource clk) d) ∧ (evs.foldl (NDec.handleSource clk) d).det = d.det ∧
      (evs.foldl (NDec.handleSource clk) d).data = d.data ++ evs.map (·.data) := by
  induction evs generalizing d with
  | nil => exact ⟨h, rfl, by simp⟩
  | cons ev t ih =>
    rw [List.foldl_cons]
    have h1 : AckInv K (NDec.handleSource clk d ev) :=
      maybeAckWith_inv (d := { d with data := d.data ++ [ev.data] }) (h.congr rfl h.packets rfl) clk ev.held
        (hh ev (by simp))
    have h2 := maybeAckWith_frame clk { d with data := d.data ++ [ev.data] } ev.held
    obtain ⟨a, b, c⟩ := ih _ h1 (fun e he => hh e (by simp [he]))
    refine ⟨a, b.trans h2.1, ?_⟩
    rw [c, show (NDec.handleSource clk d ev).data = d.data ++ [ev.data] from h2.2]
    simp

theorem afterDet_ok {K : Set Nat} (clk : Clock) (d : NDec) (det' : Dec) (h : AckInv K d)
    (hp : d.det.log <+: det'.log) (hh : ∀ ev ∈ det'.log, ∀ x ∈ ev.held, x ∈ K)
    (hd : d.data = d.det.log.map (·.data)) :
    AckInv K (d.afterDet clk det') ∧ (d.afterDet clk det').det = det' ∧
      (d.afterDet clk det').data = det'.log.map (·.data) := by
  obtain ⟨t, ht⟩ := hp
  have hdrop : det'.log.drop d.det.log.length = t := by rw [← ht]; simp
  obtain ⟨a, b, c⟩ := handle_fold (K := K) clk t { d with det := det' } (h.congr rfl h.packets rfl)
    (fun ev hev => hh ev (by rw [← ht]; simp [hev]))
  unfold NDec.afterDet
  rw [hdrop]
  refine ⟨a, b, ?_⟩
  rw [c, ← ht]
  simp [hd]

/-! ## The invariant -/

variable [Fact (0 < w)]

theorem Core.mono_P {gf : GF w} {data : Nat → List Byte} {P P' : Nat → Nat → Prop} {ρ L : Nat} {W K : Set Nat}
    {s : Dec} (h : Core gf data P ρ L W K s) (hP : ∀ rid x, P rid x → P' rid x)
    (hP' : ∀ q ∈ s.repairs, ∀ x, P' q.1 x → P q.1 x) : Core gf data P' ρ L W K s :=
  ⟨h.srcSorted, h.srcGet, h.misSorted, h.misKeys, h.repSorted,
    fun q hq => ⟨(h.rep q hq).1, (h.rep q hq).2.1,
      fun x hx => ⟨((h.rep q hq).2.2.1 x hx).1, ((h.rep q hq).2.2.1 x hx).2.1, hP _ _ ((h.rep q hq).2.2.1 x hx).2.2⟩,
      (h.rep q hq).2.2.2⟩,
    h.links, h.lastEq, h.lo, h.dataOk, fun q hq x hx => h.full q hq x (hP' q hq x hx)⟩

theorem DInv.mono_P {gf : GF w} {data : Nat → List Byte} {P P' : Nat → Nat → Prop} {ρ L : Nat} {W K : Set Nat}
    {s : Dec} (h : DInv gf data P ρ L W K s) (hP : ∀ rid x, P rid x → P' rid x)
    (hP' : ∀ q ∈ s.repairs, ∀ x, P' q.1 x → P q.1 x) : DInv gf data P' ρ L W K s :=
  ⟨h.core.mono_P hP hP', h.cnt, h.log, h.last, h.bound⟩

/-- Repair `rid` arrived and encodes source `x`. -/
def Arrived (ems : List Em) (hist : List Nat) (rid x : Nat) : Prop :=
  ∃ j ∈ hist, ∃ W, ems[j]? = some (.rep rid W) ∧ x ∈ W

/-- The newest repair that arrived. -/
def Newest (ems : List Em) (hist : List Nat) (ρ L : Nat) (W : Set Nat) : Prop :=
  ((∀ j ∈ hist, ∀ rid W', ems[j]? ≠ some (.rep rid W')) ∧ W = ∅ ∧ L = 0 ∧ ρ = 0) ∨
  ∃ j ∈ hist, ∃ Wl, ems[j]? = some (.rep ρ Wl) ∧ W = {x | x ∈ Wl} ∧ Wl.head? = some L ∧
    ∀ j' ∈ hist, ∀ rid W', ems[j']? = some (.rep rid W') → j' ≤ j

structure SysInv (c : Cfg w) (io : Bool) (data : Nat → List Byte) (ems : List Em) (A : Set Nat) (ρ L : Nat)
    (W K : Set Nat) (s : Sys) : Prop where
  enc : EncInv c.gf data ems A s.committed.length s.enc
  cur : s.enc.curSrc = s.committed.length
  curLt : s.committed.length < 2 ^ 32
  rep : s.enc.curRep = s.enc.nbSentRepairs
  rate : s.enc.rate ≠ 0
  ws : s.enc.windowSize ≠ 0
  dinv : DInv c.gf data (Arrived ems s.hist) ρ L W K s.dec.det
  io : s.dec.det.inOrder = io
  histLt : ∀ i ∈ s.hist, i < ems.length
  newest : Newest ems s.hist ρ L W
  seen : ∀ i ∈ s.hist, ∀ x, ems[i]? = some (.src x) → x ∈ K ∨ x < L
  ackK : A ⊆ K
  knownLt : ∀ x ∈ K, x < s.committed.length
  dataLog : s.dec.data = s.dec.det.log.map (·.data)
  acks : AckInv K s.dec
  errs : s.errs = 0

section
variable {c : Cfg w} {io : Bool} {data : Nat → List Byte} {ems : List Em} {A : Set Nat} {ρ L : Nat}
  {W K : Set Nat} {s : Sys}

theorem sysInv_init (c : Cfg w) (io : Bool) (data : Nat → List Byte) :
    SysInv c io data [] ∅ 0 0 ∅ ∅ (Sys.init c.clk io) where
  enc := encInv_init
  cur := rfl
  curLt := by show (0 : Nat) < 2 ^ 32; decide
  rep := rfl
  rate := by show Enc.init.rate ≠ 0; decide
  ws := by show Enc.init.windowSize ≠ 0; decide
  dinv := by
    refine ⟨?_, cnt_nil _, ?_, Or.inl ⟨rfl, rfl, rfl⟩, by simp⟩
    · constructor <;> simp [Sys.init, NDec.init, Dec.init, OMap.SortedKeys, OMap.get?, LinksOk]
    · refine ⟨⟨by simp [Sys.init, NDec.init, Dec.init], by simp [Sys.init, NDec.init, Dec.init], by simp⟩, ?_, ?_⟩
      · intro _; simp [Sys.init, NDec.init, Dec.init, Dec.logIds]
      · intro _
        refine ⟨?_, by simp⟩
        constructor <;> simp [Sys.init, NDec.init, Dec.init, Dec.logIds]
  io := rfl
  histLt := by simp [Sys.init]
  newest := Or.inl ⟨by simp [Sys.init], rfl, rfl, rfl⟩
  seen := by simp [Sys.init]
  ackK := by simp
  knownLt := by simp
  dataLog := rfl
  acks := ⟨List.Pairwise.nil, by simp [Sys.init, NDec.init], by show (0 : Nat) < 2 ^ 16; decide, by simp [Sys.init, NDec.init]⟩
  errs := rfl

/-- Changes of the decoder that do not concern `detail::decoder`. -/
theorem SysInv.withDec (h : SysInv c io data ems A ρ L W K s) {d : NDec} (h1 : d.det = s.dec.det)
    (h2 : d.data = s.dec.data) (h3 : AckInv K d) : SysInv c io data ems A ρ L W K { s with dec := d } where
  enc := h.enc
  cur := h.cur
  curLt := h.curLt
  rep := h.rep
  rate := h.rate
  ws := h.ws
  dinv := by show DInv _ _ _ _ _ _ _ d.det; rw [h1]; exact h.dinv
  io := by show d.det.inOrder = io; rw [h1]; exact h.io
  histLt := h.histLt
  newest := h.newest
  seen := h.seen
  ackK := h.ackK
  knownLt := h.knownLt
  dataLog := by show d.data = d.det.log.map _; rw [h1, h2]; exact h.dataLog
  acks := h3
  errs := h.errs

/-- Emissions do not disturb what concerns the packets that arrived. -/
theorem getElem?_append_of_lt {l new : List Em} {i : Nat} (h : i < l.length) : (l ++ new)[i]? = l[i]? :=
  List.getElem?_append_left h

/-- Changes of the encoder. -/
theorem SysInv.withEnc (h : SysInv c io data ems A ρ L W K s) {e : Enc} {new : List Em} {A' : Set Nat}
    {com : List (List Byte)} (hlen : s.committed.length ≤ com.length) (hlt : com.length < 2 ^ 32)
    (he : EncInv c.gf data (ems ++ new) A' com.length e) (hc : e.curSrc = com.length)
    (hr : e.curRep = e.nbSentRepairs) (hrate : e.rate ≠ 0) (hws : e.windowSize ≠ 0) (hA : A' ⊆ K) :
    SysInv c io data (ems ++ new) A' ρ L W K { s with enc := e, committed := com } where
  enc := he
  cur := hc
  curLt := hlt
  rep := hr
  rate := hrate
  ws := hws
  dinv := by
    apply h.dinv.mono_P
    · rintro rid x ⟨j, hj, W', h1, h2⟩
      exact ⟨j, hj, W', by rw [getElem?_append_of_lt (h.histLt j hj)]; exact h1, h2⟩
    · rintro q _ x ⟨j, hj, W', h1, h2⟩
      exact ⟨j, hj, W', by rw [getElem?_append_of_lt (h.histLt j hj)] at h1; exact h1, h2⟩
  io := h.io
  histLt := fun i hi => by have := h.histLt i hi; rw [List.length_append]; omega
  newest := by
    rcases h.newest with ⟨h1, h2⟩ | ⟨j, hj, Wl, h1, h2, h3, h4⟩
    · refine Or.inl ⟨fun j hj rid W' => ?_, h2⟩
      rw [getElem?_append_of_lt (h.histLt j hj)]; exact h1 j hj rid W'
    · refine Or.inr ⟨j, hj, Wl, by rw [getElem?_append_of_lt (h.histLt j hj)]; exact h1, h2, h3, ?_⟩
      intro j' hj' rid W' he'
      rw [getElem?_append_of_lt (h.histLt j' hj')] at he'
      exact h4 j' hj' rid W' he'
  seen := fun i hi x hx => by
    rw [getElem?_append_of_lt (h.histLt i hi)] at hx
    exact h.seen i hi x hx
  ackK := hA
  knownLt := fun x hx => lt_of_lt_of_le (h.knownLt x hx) hlen
  dataLog := h.dataLog
  acks := h.acks
  errs := h.errs

end

end Netcode
