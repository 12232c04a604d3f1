import Verif.Props.Settings

/-!
# C75: the repairs of the adaptive mode against the losses measured
-/

namespace Netcode

variable {w : Nat} {gf : GF w} {F : F64} {dbg : Bool}

/-- With the rate `r` for `sent` packets and `received` ones, the lost packets are at most one in `r + 1`. -/
theorem adaptiveRate_enough (sent received : Nat) (h : 3 * (sent - received) ≤ sent) :
    (sent - received) * (adaptiveRate sent received + 1) ≤ sent := by
  unfold adaptiveRate
  simp only
  generalize hl : sent - received = l at *
  by_cases hc : 100 * l < sent ∨ sent = 0
  · rw [if_pos hc]; omega
  · rw [if_neg hc]
    have hs : 0 < sent := by omega
    have hl0 : 0 < l := by omega
    generalize hr : ((sent : Rat) / (2 * l)).ceil.toNat = r
    rcases Nat.lt_or_ge r 3 with hlt | hge
    · have : l * (r + 1) ≤ l * 3 := Nat.mul_le_mul_left _ (by omega)
      omega
    · have hq : (0 : Rat) < 2 * (l : Rat) := by
        have : (0 : Rat) < (l : Rat) := by exact_mod_cast hl0
        linarith
      have hx : ((r : Int) - 1 : Int) < ((sent : Rat) / (2 * l)).ceil := by omega
      have h2 : (((r : Int) - 1 : Int) : Rat) < (sent : Rat) / (2 * l) := Rat.lt_ceil_iff.1 hx
      rw [lt_div_iff₀ hq] at h2
      have h3 : ((r : Rat) - 1) * (2 * (l : Rat)) < (sent : Rat) := by push_cast at h2; linarith
      have h4 : (r - 1) * (2 * l) < sent := by
        have : (((r - 1) * (2 * l) : Nat) : Rat) < (sent : Rat) := by
          push_cast [Nat.cast_sub (show 1 ≤ r by omega)]
          linarith
        exact_mod_cast this
      obtain ⟨k, rfl⟩ : ∃ k, r = k + 3 := ⟨r - 3, by omega⟩
      have h5 : (k + 3 - 1) * (2 * l) = l * (k + 3 + 1) + l * k := by
        rw [show k + 3 - 1 = k + 2 by omega]; ring
      omega

/-- Commits of a systematic encoder: one more repair at each multiple of the rate. -/
theorem commits_repairs (l : List (List Byte)) {e e' : Enc} {n : Nat} (hn : n + l.length < 2 ^ 32) (hcur : e.curSrc = n)
    (hsys : e.systematic = true) (h : e.after gf F dbg (l.map .commit) = .ok e') :
    e'.rate = e.rate ∧ (repairsOf e'.out).length + n / e.rate = (repairsOf e.out).length + (n + l.length) / e.rate ∧
    e'.out.length = e.out.length + l.length + ((repairsOf e'.out).length - (repairsOf e.out).length) ∧
    (repairsOf e.out).length ≤ (repairsOf e'.out).length := by
  induction l generalizing e n with
  | nil =>
    cases h
    simp
  | cons d t ih =>
    simp only [Enc.after, List.map_cons, List.foldlM_cons] at h
    obtain ⟨e1, h1, h2⟩ := bind_ok_iff.1 h
    rw [List.length_cons] at hn
    have h1' : e.commit gf dbg d = .ok e1 := h1
    obtain ⟨a1, a2, rfl, h5, h6, h7⟩ := commit_inv h1'
    rcases h5 with ⟨-, rfl⟩ | ⟨h9, -⟩
    rotate_left
    · rw [hsys] at h9; cases h9
    have hn1 : (n + 1) % 2 ^ 32 = n + 1 := Nat.mod_eq_of_lt (by omega)
    rw [hcur, hn1] at h7
    have hdiv : (n + 1) / e.rate = n / e.rate + (if (n + 1) % e.rate = 0 then 1 else 0) := by
      rw [Nat.succ_div]
      by_cases hd : e.rate ∣ n + 1
      · rw [if_pos hd, if_pos (Nat.mod_eq_zero_of_dvd hd)]
      · rw [if_neg hd, if_neg (fun h => hd (Nat.dvd_of_mod_eq_zero h))]
    rw [show n + (d :: t).length = n + 1 + t.length by rw [List.length_cons]; omega]
    have key : e1.curSrc = n + 1 ∧ e1.systematic = true ∧ e1.rate = e.rate ∧
        (repairsOf e1.out).length = (repairsOf e.out).length + (if (n + 1) % e.rate = 0 then 1 else 0) ∧
        e1.out.length = e.out.length + 1 + (if (n + 1) % e.rate = 0 then 1 else 0) := by
      rcases h7 with ⟨h10, rfl⟩ | ⟨h10, r2, -, rfl⟩
      · refine ⟨by simp only [Enc.sentSource, hcur, hn1], hsys, rfl, ?_, ?_⟩
        · simp [Enc.sentSource, repairsOf_append, repairsOf, h10]
        · simp [Enc.sentSource, h10]
      · refine ⟨by simp only [Enc.sentSource, Enc.sentRepair, hcur, hn1], hsys, rfl, ?_, ?_⟩
        · simp [Enc.sentSource, Enc.sentRepair, repairsOf_append, repairsOf, h10]
        · simp [Enc.sentSource, Enc.sentRepair, h10]
    obtain ⟨g1, g2, g3, g4, g5⟩ := key
    obtain ⟨k1, k2, k3, k4⟩ := ih (n := n + 1) (by omega) g1 g2 h2
    rw [g3] at k2
    refine ⟨k1.trans g3, ?_, ?_, ?_⟩
    · rw [hdiv] at k2; omega
    · rw [List.length_cons]; omega
    · omega

/-- **C75, in part** (missing: losses of more than a third of the packets). In adaptive mode, when an ack reports that at most a third of
the packets sent since the previous ack were lost, then among the packets that the next commits emit the share of repairs is at
least the share of packets that were lost. -/
theorem C75_enough_partial {pre mid : List EAct} {e1 e2 e3 e4 : Enc} {p : List Byte} {n m : Nat} {l : List (List Byte)}
    (hpre : pre = [] ∨ ∃ q a, pre = q ++ [.packet a] ∧ accepts a = true)
    (h1 : Enc.init.after gf ieee dbg pre = .ok e1) (hmid : ∀ a, EAct.packet a ∈ mid → accepts a = false)
    (h2 : e1.after gf ieee dbg mid = .ok e2) (had : adaptiveSet (pre ++ mid) = true) (hsys : systematicSet (pre ++ mid) = true)
    (h3 : e2.notify ieee dbg p = .ok (e3, .ok n)) (hlt : e2.out.length - e1.out.length < 2 ^ 16)
    (hloss : 3 * (e2.out.length - e1.out.length - reportedBy p) ≤ e2.out.length - e1.out.length)
    (hn : (commitsOf (pre ++ mid)).length + l.length < 2 ^ 32) (h4 : e3.after gf ieee dbg (l.map .commit) = .ok e4)
    (hm : l.length = m * e3.rate) :
    (repairsOf e4.out).length = (repairsOf e3.out).length + m ∧
    (e2.out.length - e1.out.length - reportedBy p) * (e4.out.length - e3.out.length) ≤ (e2.out.length - e1.out.length) * m := by
  have hset := settings_after (after_append_of h1 h2)
  have ha : e2.adaptive = true := by rw [hset.2.2]; exact had
  have hs2 : e2.systematic = true := by rw [hset.1]; exact hsys
  have hs := (sent_after (sent_zero hpre h1) hmid h2).2
  rw [Nat.mod_eq_of_lt hlt] at hs
  have hrate := ack_rate (dbg := dbg) ha (by rw [hs]; exact hlt) h3
  rw [hs] at hrate
  have hcur : e2.curSrc = (commitsOf (pre ++ mid)).length := by
    rw [(eHist (after_append_of h1 h2)).curSrc]; exact Nat.mod_eq_of_lt (by omega)
  obtain ⟨a, k, -, -, he3⟩ := notify_accepts h3
  have hcur3 : e3.curSrc = (commitsOf (pre ++ mid)).length := by rw [he3]; exact hcur
  have hsys3 : e3.systematic = true := by rw [he3]; exact hs2
  have h5 := commits_repairs l hn hcur3 hsys3 h4
  generalize hS : e2.out.length - e1.out.length = S at *
  generalize hL : S - reportedBy p = L at *
  have hle : L * (e3.rate + 1) ≤ S := by
    rw [hrate]
    split
    · next hc => omega
    · rw [← hL]; apply adaptiveRate_enough; rw [hL]; exact hloss
  have hpos : 0 < e3.rate := by
    rw [hrate]
    split
    · decide
    · have := C28_rate_range (F := ieee) ieee_ok ha h3
      rw [hrate] at this
      split at this
      · contradiction
      · omega
  obtain ⟨-, g2, g3, g4⟩ := h5
  have hd : ((commitsOf (pre ++ mid)).length + l.length) / e3.rate = (commitsOf (pre ++ mid)).length / e3.rate + m := by
    rw [hm, Nat.add_mul_div_right _ _ hpos]
  refine ⟨by omega, ?_⟩
  have hout : e4.out.length - e3.out.length = m * (e3.rate + 1) := by
    rw [Nat.mul_add, ← hm]; omega
  rw [hout]
  calc L * (m * (e3.rate + 1)) = (L * (e3.rate + 1)) * m := by ring
    _ ≤ S * m := Nat.mul_le_mul_right _ hle

/-- Ten packets sent, seven received: the next four commits emit two repairs, a third of the packets. -/
example : ((Enc.init.after gf8 ieee true (quietHist 10 ++ .packet [0, 0, 7, 0, 0] :: List.replicate 4 (.commit [1]))).map
    (fun e => (e.rate, e.out.length, (repairsOf e.out).length))).toOption = some (2, 16, 2) ∧
    adaptiveSet (quietHist 10) = true ∧ systematicSet (quietHist 10) = true ∧ accepts [0, 0, 7, 0, 0] = true ∧
    reportedBy [0, 0, 7, 0, 0] = 7 := by decide +kernel

/-- **C75 fails** beyond a third: two packets out of five are lost, and one of the next three packets is a repair. -/
theorem C75_false (dbg : Bool) : ((Enc.init.after gf8 ieee dbg (quietHist 5)).map (·.out.length)).toOption = some 5 ∧
    reportedBy [0, 0, 3, 0, 0] = 3 ∧ adaptiveSet (quietHist 5) = true ∧ systematicSet (quietHist 5) = true ∧
    ((Enc.init.after gf8 ieee dbg (quietHist 5 ++ [.packet [0, 0, 3, 0, 0]])).map
      (fun e => (e.rate, e.out.length, (repairsOf e.out).length))).toOption = some (2, 5, 0) ∧
    ((Enc.init.after gf8 ieee dbg (quietHist 5 ++ [.packet [0, 0, 3, 0, 0], .commit [1], .commit [2]])).map
      (fun e => (e.rate, e.out.length, (repairsOf e.out).length))).toOption = some (2, 5 + 3, 1) ∧
    ¬ (5 - 3) * 3 ≤ 5 * 1 := by revert dbg; decide +kernel

end Netcode
