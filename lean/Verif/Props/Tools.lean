import Verif.Spec.Tools
import Verif.Props.Line
import Verif.Proofs.Settings

/-!
# C71: the proxy that loses packets
-/

namespace Netcode

variable {w : Nat} {σ : Type} {L L' : σ → Bool × σ}

theorem lossState_succ (l : σ) (k : Nat) : lossState L l (k + 1) = lossState L (L l).2 k := by
  induction k with
  | zero => rfl
  | succ n ih => simp only [lossState] at ih ⊢; rw [ih]

theorem lossAt_succ (l : σ) (k : Nat) : lossAt L l (k + 1) = lossAt L (L l).2 k := by
  unfold lossAt; rw [lossState_succ]

theorem arrive_empty (p : Proxy σ) (d : List Byte) (h : d.length = 0) : p.arrive L d = p := by
  obtain rfl := List.length_eq_zero_iff.1 h
  simp [Proxy.arrive]

theorem arrive_some (p : Proxy σ) (d : List Byte) (h : d.length ≠ 0) :
    p.arrive L d = { loss := (L p.loss).2, total := p.total + 1, losses := p.losses + (if (L p.loss).1 then 1 else 0),
                     out := p.out ++ (if (L p.loss).1 then [] else [d.take 4096]) } := by
  have h1 : (d.take smallBuffer).length ≠ 0 := by
    rw [List.length_take]; simp only [smallBuffer]; omega
  unfold Proxy.arrive
  simp only [h1, ne_eq, not_false_eq_true, if_true]
  rcases hL : L p.loss with ⟨b, l⟩
  cases b <;> simp [smallBuffer]

/-- **C71.** The proxy sends on exactly the datagrams that the loss lets pass, in order, cut at 4096 bytes; it counts all of them, and
those lost.  Empty datagrams are ignored. -/
theorem C71_forwards (l : σ) (ds : List (List Byte)) :
    ((Proxy.init l).run L ds).out = ((nonEmpty ds).zipIdx.filter (fun x => !lossAt L l x.2)).map (fun x => x.1.take 4096) ∧
    ((Proxy.init l).run L ds).total = (nonEmpty ds).length ∧
    ((Proxy.init l).run L ds).losses + ((Proxy.init l).run L ds).out.length = ((Proxy.init l).run L ds).total := by
  have key : ∀ (ds : List (List Byte)) (p : Proxy σ) (k : Nat), p.loss = lossState L l k → p.losses + p.out.length = p.total →
      (p.run L ds).out = p.out ++ (((nonEmpty ds).zipIdx k).filter (fun x => !lossAt L l x.2)).map (fun x => x.1.take 4096) ∧
      (p.run L ds).total = p.total + (nonEmpty ds).length ∧ (p.run L ds).losses + (p.run L ds).out.length = (p.run L ds).total := by
    intro ds
    induction ds with
    | nil => intro p k h1 h2; simp [Proxy.run, nonEmpty, h2]
    | cons d t ih =>
      intro p k h1 h2
      by_cases hd : d.length = 0
      · have e1 : p.run L (d :: t) = p.run L t := by simp only [Proxy.run, List.foldl_cons, arrive_empty p d hd]
        have e2 : nonEmpty (d :: t) = nonEmpty t := by simp [nonEmpty, List.length_eq_zero_iff.1 hd]
        rw [e1, e2]; exact ih p k h1 h2
      · have e1 : p.run L (d :: t) = (p.arrive L d).run L t := rfl
        have e2 : nonEmpty (d :: t) = d :: nonEmpty t := by
          unfold nonEmpty; rw [List.filter_cons, if_pos (by simpa using hd)]
        rw [e1, e2]
        have e3 := arrive_some (L := L) p d hd
        obtain ⟨i1, i2, i3⟩ := ih (p.arrive L d) (k + 1) (by rw [e3, h1]; rfl) (by
          rw [e3]
          simp only [List.length_append]
          split <;> simp <;> omega)
        refine ⟨?_, ?_, i3⟩
        · rw [i1, e3]
          simp only [List.zipIdx_cons, List.filter_cons, List.append_assoc]
          congr 1
          have : lossAt L l k = (L p.loss).1 := by rw [h1]; rfl
          rw [this]
          cases (L p.loss).1 <;> simp
        · rw [i2, e3]; simp only [List.length_cons]; omega
  have := key ds (Proxy.init l) 0 rfl rfl
  simpa [Proxy.init] using this

/-- The second of three datagrams is lost; an empty one does not count. -/
example : let p := (Proxy.init [['0'], ['1'], ['0']]).run streamLoss [[1], [], [2, 2], [3]]
    p.out = [[1], [3]] ∧ p.total = 3 ∧ p.losses = 1 := by decide +kernel

/-- **C71.** With a file, packet `k` is lost if line `k` of the file does not begin with 0; packets after the end of the file pass. -/
theorem C71_file (lines : List (List Char)) (k : Nat) :
    lossAt streamLoss lines k = (match lines[k]? with | none => false | some line => line.head? != some '0') := by
  induction lines generalizing k with
  | nil =>
    have h : ∀ k, lossState streamLoss [] k = [] := by
      intro k
      induction k with
      | zero => rfl
      | succ n ih => simp [lossState, ih, streamLoss]
    simp [lossAt, h, streamLoss]
  | cons x t ih =>
    cases k with
    | zero =>
      simp only [lossAt, lossState, streamLoss, List.getElem?_cons_zero]
      cases x
      · rfl
      · rw [Bool.eq_iff_iff]; simp
    | succ n => rw [lossAt_succ]; simpa [streamLoss] using ih n

/-- **C71.** With a percentage, packet `k` is lost if the number drawn exceeds the threshold; of the numbers from 1 to 100, as many do as
the percentage says. -/
theorem C71_uniform (draws : Nat → Nat) (threshold k : Nat) : lossAt (uniformStep threshold) draws k = decide (threshold < draws k) := by
  induction k generalizing draws with
  | zero => simp [lossAt, lossState, uniformStep, uniformLoss]
  | succ n ih => rw [lossAt_succ]; exact ih _

theorem countP_gt (n t : Nat) (h : t ≤ n) : (List.range' 1 n).countP (fun d => decide (t < d)) = n - t := by
  induction n with
  | zero => simp
  | succ m ih =>
    rw [List.range'_concat, List.countP_append]
    by_cases hm : t ≤ m
    · rw [ih hm]
      have : (decide (t < 1 + 1 * m)) = true := by simp; omega
      simp only [List.countP_cons, List.countP_nil, this, if_true]
      omega
    · have e : t = m + 1 := by omega
      subst e
      have : (List.range' 1 m).countP (fun d => decide (m + 1 < d)) = 0 := by
        rw [List.countP_eq_zero]
        intro d hd
        have := List.mem_range'_1.1 hd
        simp; omega
      rw [this]
      have : (decide (m + 1 < 1 + 1 * m)) = false := by simp; omega
      simp only [List.countP_cons, List.countP_nil, this]
      simp

theorem C71_percentage (p : Nat) (hp : p ≤ 100) :
    (List.range' 1 100).countP (fun draw => uniformLoss (uniformThreshold p) draw) = p := by
  have e : uniformThreshold p = 100 - p := by unfold uniformThreshold; omega
  rw [e]
  have := countP_gt 100 (100 - p) (by omega)
  simp only [uniformLoss]
  show (List.range' 1 100).countP (fun d => decide (100 - p < d)) = p
  rw [this]; omega

/-- **C71 fails for percentages 0 and 100** (and above) with assertions: the proxy stops. -/
theorem C71_false_uniform (p : Nat) (hp : p < 2 ^ 32) : uniformNew true (uniformThreshold p) = .ok () ↔ 0 < p ∧ p < 100 := by
  have e : uniformThreshold p = (2 ^ 32 + 100 - p) % 2 ^ 32 := by unfold uniformThreshold; rw [Nat.mod_eq_of_lt hp]
  unfold uniformNew cassert
  rw [e]
  constructor
  · intro h
    split at h
    · cases h
    · rename_i h2; simp at h2; omega
  · intro h
    rw [if_neg]
    simp; omega

/-- **C71.** With bursts, the first packet, and each packet after one that passed, is lost if the number drawn is at least `pGood`; each
packet after one that was lost is lost if the number drawn is less than `pBad`. -/
theorem C71_burst (draws : Nat → Nat) (pGood pBad : Nat) :
    lossAt (burstStep pGood pBad) (true, draws) 0 = decide (pGood ≤ draws 0) ∧
    ∀ k, lossAt (burstStep pGood pBad) (true, draws) (k + 1) =
      if lossAt (burstStep pGood pBad) (true, draws) k then decide (draws (k + 1) < pBad) else decide (pGood ≤ draws (k + 1)) := by
  have h : ∀ k, (lossState (burstStep pGood pBad) (true, draws) k).2 = fun n => draws (n + k) := by
    intro k
    induction k with
    | zero => rfl
    | succ n ih =>
      simp only [lossState, burstStep, ih]
      funext m
      congr 1
      omega
  have h0 : ∀ (s : Bool × (Nat → Nat)), (burstStep pGood pBad s).1 = if s.1 then decide (pGood ≤ s.2 0) else decide (s.2 0 < pBad) := by
    intro s
    obtain ⟨g, d⟩ := s
    cases g
    · by_cases hd : d 0 < pBad <;> simp [burstStep, burstLoss, hd]
    · by_cases hd : d 0 < pGood
      · simp [burstStep, burstLoss, hd]
      · simp [burstStep, burstLoss, hd]; omega
  have h1 : ∀ (s : Bool × (Nat → Nat)), (burstStep pGood pBad s).2.1 = !(burstStep pGood pBad s).1 := by
    intro s
    obtain ⟨g, d⟩ := s
    cases g
    · by_cases hd : d 0 < pBad <;> simp [burstStep, burstLoss, hd]
    · by_cases hd : d 0 < pGood <;> simp [burstStep, burstLoss, hd]
  constructor
  · exact h0 _
  · intro k
    unfold lossAt
    rw [h0, h (k + 1)]
    simp only [lossState, h1, Nat.zero_add]
    cases (burstStep pGood pBad (lossState (burstStep pGood pBad) (true, draws) k)).1 <;> simp

/-- **C71, the other way**: that `pGood` and `pBad` are percentages.  A packet is lost for `101 - pGood` of the 100 numbers after one that
passed, and for `pBad - 1` after one that was lost. -/
theorem C71_false_burst (pGood pBad : Nat) (h1 : 1 ≤ pGood) (h2 : pGood ≤ 101) (h3 : 1 ≤ pBad) (h4 : pBad ≤ 101) :
    (List.range' 1 100).countP (fun draw => (burstLoss pGood pBad true draw).1) = 101 - pGood ∧
    (List.range' 1 100).countP (fun draw => (burstLoss pGood pBad false draw).1) = pBad - 1 := by
  have e1 : (fun draw => (burstLoss pGood pBad true draw).1) = fun d => decide (pGood - 1 < d) := by
    funext d; simp only [burstLoss, if_true]; split <;> simp <;> omega
  have e2 : (fun draw => (burstLoss pGood pBad false draw).1) = fun d => !decide (pBad - 1 < d) := by
    funext d; simp only [burstLoss]; simp only [Bool.false_eq_true, if_false]; split <;> simp <;> omega
  rw [e1, e2, countP_gt 100 (pGood - 1) (by omega)]
  refine ⟨by omega, ?_⟩
  have := List.length_eq_countP_add_countP (fun d => decide (pBad - 1 < d)) (l := List.range' 1 100)
  rw [countP_gt 100 (pBad - 1) (by omega)] at this
  simp only [List.length_range'] at this
  have e3 : (List.range' 1 100).countP (fun d => !decide (pBad - 1 < d)) =
      (List.range' 1 100).countP (fun a => decide ¬decide (pBad - 1 < a) = true) := by
    congr 1; funext d
    cases decide (pBad - 1 < d) <;> rfl
  rw [e3]; omega

/-- A file of four lines, the third of them empty. -/
def demoFile : List (List Char) := ["0".toList, "1".toList, [], "0 this one passes".toList]
example : (List.range 6).map (lossAt streamLoss demoFile) = [false, true, true, false, false, false] := by decide +kernel
example : let p := (Proxy.init demoFile).run streamLoss [[1], [], [2], [3], [4], [5, 6]]
    p.out = [[1], [4], [5, 6]] ∧ p.losses = 2 ∧ p.total = 5 := by decide +kernel
example : (List.range 4).map (lossAt (uniformStep 90) (fun k => 10 * k + 70)) = [false, false, false, true] ∧
    (List.range 5).map (lossAt (burstStep 90 50) (true, fun k => [90, 20, 49, 50, 89].getD k 0)) = [true, true, true, false, false] := by
  decide +kernel
example : uniformNew true (uniformThreshold 0) ≠ .ok () ∧ uniformNew true (uniformThreshold 100) ≠ .ok () ∧
    uniformNew true (uniformThreshold 101) ≠ .ok () := by decide +kernel

/-! ## Both sides -/

theorem arrive_out (p : Proxy σ) (b : List Byte) (h : b.length ≤ 4096) {d : List Byte} (hd : (p.arrive L b).out[p.out.length]? = some d) :
    d = b := by
  by_cases hb : b.length = 0
  · rw [arrive_empty p b hb] at hd; simp at hd
  · rw [arrive_some p b hb] at hd
    simp only at hd
    split at hd
    · simp at hd
    · rw [List.getElem?_append_right (by omega)] at hd
      simp at hd
      rw [← hd, List.take_of_length_le h]

/-- **C71.** An encoder and a decoder with the proxy between them are a system over a network that loses packets but does not reorder
them, so `C70` holds, whatever is lost. -/
theorem C71_link {c : Cfg w} {io : Bool} {l l' : σ} {t : Proxied σ} (h : ProxiedReach c io L L' l l' t) : LineReach c io t.sys := by
  induction h with
  | init => exact .init
  | @step t t' a h1 h2 h3 ih =>
    cases a with
    | call a =>
      simp only [Proxied.step, bind_ok_iff, pure_ok_iff] at h3
      obtain ⟨s, h4, rfl⟩ := h3
      refine .step ih ⟨h2.1, ?_⟩ h4
      cases a <;> first | trivial | exact absurd rfl (h2.2.1 _)
    | packet i =>
      simp only [Proxied.step] at h3
      split at h3
      · simp only [pure_ok_iff] at h3; subst h3; exact ih
      · rename_i p hp
        split at h3
        · simp only [pure_ok_iff] at h3; subst h3; exact ih
        · rename_i b hb
          simp only [bind_ok_iff, pure_ok_iff] at h3
          obtain ⟨⟨d, r⟩, h4, rfl⟩ := h3
          obtain rfl := arrive_out _ _ (h2.2 p hp) hb
          refine .step (a := .deliver i) ih ⟨trivial, h2.1⟩ ?_
          simp only [Sys.step, hp, h4]
          rfl
    | ack j =>
      simp only [Proxied.step] at h3
      split at h3
      · simp only [pure_ok_iff] at h3; subst h3; exact ih
      · rename_i p hp
        split at h3
        · simp only [pure_ok_iff] at h3; subst h3; exact ih
        · rename_i b hb
          simp only [bind_ok_iff, pure_ok_iff] at h3
          obtain ⟨⟨d, r⟩, h4, rfl⟩ := h3
          obtain rfl := arrive_out _ _ (h2 p hp) hb
          refine .step (a := .ack j) ih ⟨trivial, trivial⟩ ?_
          simp only [Sys.step, hp, h4]
          rfl

/-- **C71.** Each direction of the proxy does to what comes to it what the proxy does to these datagrams alone (`C71_forwards`). -/
theorem C71_directions {c : Cfg w} (as : List PAct) (t t' : Proxied σ) (h : as.foldlM (Proxied.step c L L') t = .ok t') :
    t'.there = t.there.run L (t.came c L L' as).1 ∧ t'.back = t.back.run L' (t.came c L L' as).2 := by
  induction as generalizing t with
  | nil => cases h; exact ⟨rfl, rfl⟩
  | cons a as ih =>
    rw [List.foldlM_cons, bind_ok_iff] at h
    obtain ⟨t1, h1, h2⟩ := h
    obtain ⟨i1, i2⟩ := ih t1 h2
    simp only [Proxied.came, h1]
    cases a with
    | call a =>
      simp only [Proxied.step, bind_ok_iff, pure_ok_iff] at h1
      obtain ⟨s, -, rfl⟩ := h1
      exact ⟨i1, i2⟩
    | packet i =>
      simp only [Proxied.step] at h1
      split at h1
      · rename_i hp
        simp only [pure_ok_iff] at h1; subst h1; simp only [hp, Option.toList_none, List.map_nil, List.nil_append]; exact ⟨i1, i2⟩
      · rename_i p hp
        simp only [hp, Option.toList_some, List.map_cons, List.map_nil, List.cons_append, List.nil_append]
        split at h1
        · simp only [pure_ok_iff] at h1; subst h1; exact ⟨i1, i2⟩
        · simp only [bind_ok_iff, pure_ok_iff] at h1
          obtain ⟨⟨d, r⟩, -, rfl⟩ := h1
          exact ⟨i1, i2⟩
    | ack j =>
      simp only [Proxied.step] at h1
      split at h1
      · rename_i hp
        simp only [pure_ok_iff] at h1; subst h1; simp only [hp, Option.toList_none, List.map_nil, List.nil_append]; exact ⟨i1, i2⟩
      · rename_i p hp
        simp only [hp, Option.toList_some, List.map_cons, List.map_nil, List.cons_append, List.nil_append]
        split at h1
        · simp only [pure_ok_iff] at h1; subst h1; exact ⟨i1, i2⟩
        · simp only [bind_ok_iff, pure_ok_iff] at h1
          obtain ⟨⟨d, r⟩, -, rfl⟩ := h1
          exact ⟨i1, i2⟩

theorem arrive_length (p : Proxy σ) (b : List Byte) {d : List Byte} (hd : (p.arrive L b).out[p.out.length]? = some d) :
    (p.arrive L b).out = p.out ++ [d] := by
  by_cases hb : b.length = 0
  · rw [arrive_empty p b hb] at hd; simp at hd
  · rw [arrive_some p b hb] at hd ⊢
    simp only at hd ⊢
    split at hd
    · simp at hd
    · rw [List.getElem?_append_right (by omega)] at hd
      simp at hd
      simp [*]

theorem arrive_lost (p : Proxy σ) (b : List Byte) (hd : (p.arrive L b).out[p.out.length]? = none) : (p.arrive L b).out = p.out := by
  by_cases hb : b.length = 0
  · rw [arrive_empty p b hb]
  · rw [arrive_some p b hb] at hd ⊢
    simp only at hd ⊢
    split at hd
    · simp [*]
    · rw [List.getElem?_append_right (by omega)] at hd
      simp at hd

/-- The calls that are no acks do not change the number of acks. -/
theorem call_nbAcks {c : Cfg w} {s s' : Sys} {a : Act} (h : s.step c a = .ok s') (ha : ∀ j, a ≠ .ack j) : s'.enc.nbAcks = s.enc.nbAcks := by
  cases a <;> simp only [Sys.step, bind_ok_iff, pure_ok_iff] at h
  case commit d => obtain ⟨e, h1, rfl⟩ := h; exact (commit_same h1).2.2.1
  case repair => obtain ⟨e, h1, rfl⟩ := h; exact (repair_same h1).2.2.1
  case setRate n =>
    obtain ⟨e, h1, rfl⟩ := h
    simp only [Enc.setRate, bind_ok_iff, pure_ok_iff] at h1
    obtain ⟨_, _, rfl⟩ := h1; rfl
  case setWindow n =>
    obtain ⟨e, h1, rfl⟩ := h
    simp only [Enc.setWindowSize, bind_ok_iff, pure_ok_iff] at h1
    obtain ⟨_, _, rfl⟩ := h1; rfl
  case deliver i =>
    split at h
    · cases h; rfl
    · simp only [bind_ok_iff, pure_ok_iff] at h
      obtain ⟨_, _, rfl⟩ := h; rfl
  case ack j => exact absurd rfl (ha j)
  case setAckNb n => obtain ⟨d, h1, rfl⟩ := h; rfl
  all_goals (cases h; rfl)

/-- **C71.** What gets to the decoder and to the encoder is what the two directions of the proxy sent on: the packets that the decoder
got are those that came out of one, and the encoder got as many acks as came out of the other. -/
theorem C71_both {c : Cfg w} {io : Bool} {l l' : σ} {t : Proxied σ} (h : ProxiedReach c io L L' l l' t) :
    t.sys.hist.map (fun i => ((t.sys.enc.out[i]?).map EPkt.bytes).getD []) = t.there.out ∧ t.sys.enc.nbAcks = t.back.out.length := by
  suffices H : (∀ i ∈ t.sys.hist, i < t.sys.enc.out.length) ∧
      t.sys.hist.map (fun i => ((t.sys.enc.out[i]?).map EPkt.bytes).getD []) = t.there.out ∧ t.sys.enc.nbAcks = t.back.out.length from H.2
  have same : ∀ {l : List Nat} {a b : List EPkt}, (∀ i ∈ l, i < a.length) → a <+: b →
      l.map (fun i => ((b[i]?).map EPkt.bytes).getD []) = l.map (fun i => ((a[i]?).map EPkt.bytes).getD []) := by
    intro l a b hl hab
    refine List.map_congr_left fun i hi => ?_
    obtain ⟨r, rfl⟩ := hab
    rw [List.getElem?_append_left (hl i hi)]
  induction h with
  | init => exact ⟨fun i hi => (by cases hi), rfl, rfl⟩
  | @step t t' a h1 h2 h3 ih =>
    obtain ⟨ih0, ih1, ih2⟩ := ih
    cases a with
    | call a =>
      simp only [Proxied.step, bind_ok_iff, pure_ok_iff] at h3
      obtain ⟨s, h4, rfl⟩ := h3
      have hh : s.hist = t.sys.hist := (step_hist h4).resolve_right (by rintro ⟨i, hi, -⟩; exact h2.2.1 i hi)
      have ho := step_out h4
      simp only
      rw [hh, same ih0 ho, call_nbAcks h4 h2.2.2]
      exact ⟨fun i hi => Nat.lt_of_lt_of_le (ih0 i hi) ho.length_le, ih1, ih2⟩
    | packet i =>
      simp only [Proxied.step] at h3
      split at h3
      · simp only [pure_ok_iff] at h3; subst h3; exact ⟨ih0, ih1, ih2⟩
      · rename_i p hp
        split at h3
        · rename_i hb
          simp only [pure_ok_iff] at h3; subst h3
          simp only
          rw [arrive_lost _ _ hb]
          exact ⟨ih0, ih1, ih2⟩
        · rename_i b hb
          simp only [bind_ok_iff, pure_ok_iff] at h3
          obtain ⟨⟨d, r⟩, h4, rfl⟩ := h3
          have hbb := arrive_out _ _ (h2.2 p hp) hb
          simp only
          rw [arrive_length _ _ hb, List.map_append, ih1]
          refine ⟨fun j hj => ?_, ?_, ih2⟩
          · rcases List.mem_append.1 hj with hj | hj
            · exact ih0 j hj
            · rw [List.mem_singleton.1 hj]; exact (List.getElem?_eq_some_iff.1 hp).1
          · simp [hp, hbb]
    | ack j =>
      simp only [Proxied.step] at h3
      split at h3
      · simp only [pure_ok_iff] at h3; subst h3; exact ⟨ih0, ih1, ih2⟩
      · rename_i p hp
        split at h3
        · rename_i hb
          simp only [pure_ok_iff] at h3; subst h3
          simp only
          rw [arrive_lost _ _ hb]
          exact ⟨ih0, ih1, ih2⟩
        · rename_i b hb
          simp only [bind_ok_iff, pure_ok_iff] at h3
          obtain ⟨⟨e, r⟩, h4, rfl⟩ := h3
          have hbb := arrive_out _ _ (h2 p hp) hb
          subst hbb
          have ho := enc_notify_out h4
          simp only
          rw [arrive_length _ _ hb, ho]
          refine ⟨ih0, ih1, ?_⟩
          rw [List.length_append, ← ih2]
          have ht : getPacketType (writeAck p).flatten = .ok .ack := rfl
          rw [Enc.notify_of_ack c.F c.dbg t.sys.enc ht] at h4
          rcases readAck_total (writeAck p).flatten with ⟨a, n, h5, -⟩ | h5
          · rw [h5] at h4; cases h4; rfl
          · rw [h5] at h4; cases h4; rfl

/-- Decides what is allowed. -/
def Proxied.allowed (w : Nat) (t : Proxied σ) : PAct → Bool
  | .call (.deliver _) => false
  | .call (.ack _) => false
  | .call a => decide (ApiOk w t.sys a)
  | .packet i => decide (∀ j ∈ t.sys.hist, j ≤ i) && ((t.sys.enc.out[i]?).all (fun p => decide (p.bytes.length ≤ 4096)))
  | .ack j => (t.sys.dec.out[j]?).all (fun a => decide ((writeAck a).flatten.length ≤ 4096))

theorem allowed_of {t : Proxied σ} {a : PAct} (h : t.allowed w a = true) : t.Allowed w a := by
  cases a with
  | call a => cases a <;> simp_all [Proxied.allowed, Proxied.Allowed]
  | packet i =>
    simp only [Proxied.allowed, Bool.and_eq_true, decide_eq_true_eq] at h
    refine ⟨h.1, fun p hp => ?_⟩
    have := h.2
    rw [hp] at this
    simpa using this
  | ack j =>
    intro a hp
    simp only [Proxied.allowed] at h
    rw [hp] at h
    simpa using h

/-- A run that stops at the first call that is not allowed. -/
def Proxied.runs (c : Cfg w) (L L' : σ → Bool × σ) : Proxied σ → List PAct → Option (Proxied σ)
  | t, [] => some t
  | t, a :: as => if t.allowed w a then (match t.step c L L' a with | .ok t' => t'.runs c L L' as | .error _ => none) else none

theorem runs_reach {c : Cfg w} {io : Bool} {l l' : σ} (as : List PAct) {t t' : Proxied σ} (h : ProxiedReach c io L L' l l' t)
    (hr : t.runs c L L' as = some t') : ProxiedReach c io L L' l l' t' := by
  induction as generalizing t with
  | nil => cases hr; exact h
  | cons a as ih =>
    simp only [Proxied.runs] at hr
    split at hr
    · rename_i ha
      split at hr
      · rename_i t1 h1
        exact ih (.step h (allowed_of ha) h1) hr
      · cases hr
    · cases hr

/-- Two data and a repair; the source 0 is lost and recovered; the first ack is lost. -/
def demoProxied : List PAct :=
  [.call (.commit [1, 2]), .packet 0, .call (.commit [3]), .packet 1, .call .genAck, .ack 0, .call .repair, .packet 2, .call .genAck, .ack 1]
def proxiedInit : Proxied (List (List Char)) := ⟨Sys.init (cfg8 true).clk false, Proxy.init [['1'], ['0']], Proxy.init [['1']]⟩
@[irreducible] def proxiedReached : Proxied (List (List Char)) :=
  (proxiedInit.runs (cfg8 true) streamLoss streamLoss demoProxied).getD proxiedInit
theorem proxied_demo : ProxiedReach (cfg8 true) false streamLoss streamLoss [['1'], ['0']] [['1']] proxiedReached := by
  have h : (proxiedInit.runs (cfg8 true) streamLoss streamLoss demoProxied).isSome = true := by decide +kernel
  obtain ⟨t, ht⟩ := Option.isSome_iff_exists.1 h
  unfold proxiedReached
  rw [ht]
  exact runs_reach _ .init ht
example : let t := proxiedReached
    t.sys.dec.data = [[3], [1, 2]] ∧ t.there.losses = 1 ∧ t.there.total = 3 ∧ t.back.losses = 1 ∧ t.back.total = 2 ∧
    t.sys.enc.window = 0 := by decide +kernel
example : (proxiedInit.came (cfg8 true) streamLoss streamLoss demoProxied).1.length = 3 ∧
    (proxiedInit.came (cfg8 true) streamLoss streamLoss demoProxied).2.length = 2 ∧ proxiedReached.sys.hist = [1, 2] ∧
    proxiedReached.sys.enc.nbAcks = 1 ∧ proxiedReached.back.out.length = 1 := by decide +kernel
example : proxiedReached.Allowed 8 (.packet 2) := allowed_of (by decide +kernel)

/-- **C71.** Nothing stops the encoder and the decoder. -/
theorem C71_no_stop {c : Cfg w} {io : Bool} {l l' : σ} (hc : c.Ok) (hw : w ≠ 32) {t : Proxied σ} (h : ProxiedReach c io L L' l l' t)
    (hn : t.sys.committed.length < 2 ^ 16) (a : PAct) (ha : t.Allowed w a) : ∃ t', t.step c L L' a = .ok t' ∧ t'.sys.errs = 0 := by
  have hl := C71_link h
  have hr := line_reach hc hw hl hn
  have he : t.sys.errs = 0 := by
    have := fact_of_valid hc.width
    obtain ⟨ems, A, ρ, L, W, K, hI⟩ := inv_of_reach hc hr
    exact hI.errs
  cases a with
  | call a =>
    obtain ⟨s', h1, h2⟩ := C70_no_fault hc hw hl hn a ⟨ha.1, by cases a <;> first | trivial | exact absurd rfl (ha.2.1 _)⟩
    exact ⟨{ t with sys := s' }, by simp only [Proxied.step, h1]; rfl, h2⟩
  | packet i =>
    obtain ⟨s', h1, h2⟩ := C70_no_fault hc hw hl hn (.deliver i) ⟨trivial, ha.1⟩
    simp only [Proxied.step]
    split
    · exact ⟨_, rfl, he⟩
    · rename_i p hp
      split
      · exact ⟨_, rfl, he⟩
      · rename_i b hb
        obtain rfl := arrive_out _ _ (ha.2 p hp) hb
        simp only [Sys.step, hp, bind_ok_iff, pure_ok_iff] at h1
        obtain ⟨⟨d, r⟩, h4, rfl⟩ := h1
        exact ⟨_, by rw [h4]; rfl, h2⟩
  | ack j =>
    obtain ⟨s', h1, h2⟩ := C70_no_fault hc hw hl hn (.ack j) ⟨trivial, trivial⟩
    simp only [Proxied.step]
    split
    · exact ⟨_, rfl, he⟩
    · rename_i p hp
      split
      · exact ⟨_, rfl, he⟩
      · rename_i b hb
        obtain rfl := arrive_out _ _ (ha p hp) hb
        simp only [Sys.step, hp, bind_ok_iff, pure_ok_iff] at h1
        obtain ⟨⟨d, r⟩, h4, rfl⟩ := h1
        exact ⟨_, by rw [h4]; rfl, h2⟩

/-- The lost packet comes once more after the demonstration, and passes. -/
example : ∃ t', proxiedReached.step (cfg8 true) streamLoss streamLoss (.packet 2) = .ok t' ∧ t'.sys.errs = 0 :=
  C71_no_stop (cfg8_ok true) (by decide) proxied_demo (by decide +kernel) _ (allowed_of (by decide +kernel))

end Netcode
