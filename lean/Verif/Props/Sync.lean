import Verif.Props.System
import Verif.Props.Encoder
import Verif.Proofs.Late
import Verif.Props.Late

/-!
# C61, C62: what the encoder keeps after an ack
-/

namespace Netcode

variable {w : Nat} {c : Cfg w} {io : Bool} {s : Sys}

theorem SysInv.win_ge [Fact (0 < w)] {data : Nat → List Byte} {ems : List Em} {A : Set Nat} {ρ L : Nat} {W K : Set Nat}
    (hI : SysInv c io data ems A ρ L W K s) {x : Nat} (hx : x ∈ s.enc.win) : L ≤ x := by
  by_contra hlt
  rcases hI.newest with ⟨-, -, hL, -⟩ | ⟨j, -, Wl, hj, -, hh, -⟩
  · omega
  · have hm := List.mem_of_getElem? hj
    have hLW : L ∈ Wl := List.mem_of_head? hh
    have hxW := hI.enc.f2w _ _ hm x hx L hLW (by omega)
    have hsort : Sorted Wl := by
      have hlt' : j < s.enc.out.length := by rw [hI.enc.outLen]; exact getElem?_lt hj
      obtain ⟨r, -, -, -, hs⟩ := hI.enc.rend j _ _ hj (List.getElem?_eq_getElem hlt')
      exact hs
    have := head_le_of_sorted hsort hh hxW
    omega

/-- The sources in the window are not outdated at the decoder. -/
theorem win_not_outdated (hc : c.Ok) (h : Reach c io s) {x : Nat} (hx : x ∈ s.enc.win) : ¬ s.dec.det.Outdated x := by
  have := fact_of_valid hc.width
  obtain ⟨ems, _, _, L, _, _, hI⟩ := inv_of_reach hc h
  rw [hI.outdated_iff]
  have := hI.win_ge hx
  omega

/-- **C61.** From any state: when the decoder sends an ack and this ack arrives, what is left in the window are exactly the sources that
the decoder does not know. -/
theorem C61_ack_round_trip_partial (hc : c.Ok) (h : Reach c io s) (s1 : Sys) (h1 : s.step c .genAck = .ok s1)
    (ha : Allowed c s1 (.ack s.dec.out.length)) :
    ∃ s2, s1.step c (.ack s.dec.out.length) = .ok s2 ∧
      s2.enc.sources = s.enc.sources.filter (fun x => decide (¬ s.dec.det.Knows x.id)) ∧
      s2.dec = s1.dec ∧ s2.enc.out = s.enc.out := by
  have := fact_of_valid hc.width
  obtain ⟨ems, A, ρ, L, W, K, hI⟩ := inv_of_reach hc h
  cases h1
  obtain ⟨a, hout⟩ : ∃ a, s.dec.generateAck.out = s.dec.out ++ [a] := by
    obtain ⟨a, h1, -⟩ := C24_ack_lists_held hc h 0; exact ⟨a, h1⟩
  have hids : ∀ x, x ∈ a.ids ↔ s.dec.det.Holds x := by
    intro x
    obtain ⟨a', h1, h2⟩ := C24_ack_lists_held hc h x
    rw [hout] at h1
    have := List.append_cancel_left h1
    cases this
    exact h2
  have hget : s.dec.generateAck.out[s.dec.out.length]? = some a := by rw [hout]; simp
  have hw := ha a hget
  have hr : Reach c io { s with dec := s.dec.generateAck } := .step (a := .genAck) h trivial rfl
  obtain ⟨_, _, _, _, _, _, hI2⟩ := inv_of_reach hc hr
  have hmem : a ∈ ({ s with dec := s.dec.generateAck } : Sys).dec.out := by
    show a ∈ s.dec.generateAck.out
    rw [hout]; simp
  have hnp := (hI2.acks.out a hmem).2.2
  refine ⟨{ s with enc := s.enc.gotAck.applyAck c.F a, dec := s.dec.generateAck, errs := s.errs }, ?_, ?_, rfl, rfl⟩
  · simp only [Sys.step, hget]
    rw [Enc.notify_of_ack c.F c.dbg s.enc (getPacketType_ack a), readAck_writeAck a hnp hw]
    rfl
  · show eraseIds s.enc.sources a.ids = _
    rw [eraseIds_eq _ _ hI.enc.srcSorted (hI2.acks.out a hmem).1]
    refine List.filter_congr (fun x hx => ?_)
    have hx' : x.id ∈ s.enc.win := List.mem_map_of_mem hx
    have hno := win_not_outdated hc h hx'
    rw [hI.outdated_iff] at hno
    have : x.id ∈ a.ids ↔ s.dec.det.Knows x.id := by
      rw [hids, hI.knows_iff]
      constructor
      · exact fun hh => hI.dinv.core.src_keys _ hh
      · exact fun hk => (OMap.has_iff _ _).1 ((hI.dinv.core.has_src _).2 ⟨hk, by omega⟩)
    simp only [this]

/-- **C61**: if the decoder knows all that is in the window, an ack round trip empties it. -/
theorem C61_empties_partial (hc : c.Ok) (h : Reach c io s) (s1 : Sys) (h1 : s.step c .genAck = .ok s1)
    (ha : Allowed c s1 (.ack s.dec.out.length)) (hk : ∀ x ∈ s.enc.sources, s.dec.det.Knows x.id) :
    ∃ s2, s1.step c (.ack s.dec.out.length) = .ok s2 ∧ s2.enc.window = 0 := by
  obtain ⟨s2, h2, h3, -⟩ := C61_ack_round_trip_partial hc h s1 h1 ha
  refine ⟨s2, h2, ?_⟩
  show s2.enc.sources.length = 0
  rw [h3, List.filter_eq_nil_iff.2 (fun x hx => by simpa using hk x hx)]
  rfl

/-- **C61** without a condition on the ack, for less than 2^16 commits. -/
theorem C61_short_partial (hc : c.Ok) (h : Reach c io s) (hn : s.committed.length < 2 ^ 16) :
    ∃ s1 s2, s.step c .genAck = .ok s1 ∧ s1.step c (.ack s.dec.out.length) = .ok s2 ∧
      s2.enc.sources = s.enc.sources.filter (fun x => decide (¬ s.dec.det.Knows x.id)) := by
  have hr : Reach c io { s with dec := s.dec.generateAck } := .step (a := .genAck) h trivial rfl
  obtain ⟨s2, h2, h3, -⟩ := C61_ack_round_trip_partial hc h _ rfl (allowed_ack hc hr hn _)
  exact ⟨_, s2, rfl, h2, h3⟩

/-- Source 1 of 0 to 3 is lost; the ack leaves it alone in the window. -/
def demoSync : List Act := [.setRate 10, .commit [1], .commit [2], .commit [3], .commit [4], .deliver 0, .deliver 2, .deliver 3]
example : Reach (cfg8 true) true (reached (cfg8 true) true demoSync) := reached_reach (by decide +kernel)
example : ((reached (cfg8 true) true (demoSync ++ [.genAck, .ack 0])).enc.sources.map (·.id)) = [1] := by decide +kernel

/-- **C61** with late sources: the same. -/
theorem C61_ack_round_trip_late_partial (hc : c.Ok) (h : ReachLate c io s) (s1 : Sys) (h1 : s.step c .genAck = .ok s1)
    (ha : AllowedLate c s1 (.ack s.dec.out.length)) :
    ∃ s2, s1.step c (.ack s.dec.out.length) = .ok s2 ∧
      s2.enc.sources = s.enc.sources.filter (fun x => decide (¬ s.dec.det.Knows x.id)) ∧
      s2.dec = s1.dec ∧ s2.enc.out = s.enc.out := by
  have := fact_of_valid hc.width
  cases io with
  | false => exact C61_ack_round_trip_partial hc (reach_of_late hc h) s1 h1 ha
  | true =>
    obtain ⟨ems, A, ρ, L, W, K, u, hI⟩ := late_of_reachLate hc h
    cases h1
    obtain ⟨a, hout⟩ : ∃ a, s.dec.generateAck.out = s.dec.out ++ [a] := by
      obtain ⟨a, h1, -⟩ := C24_ack_lists_held_late hc h 0; exact ⟨a, h1⟩
    have hids : ∀ x, x ∈ a.ids ↔ s.dec.det.Holds x := by
      intro x
      obtain ⟨a', h1, h2⟩ := C24_ack_lists_held_late hc h x
      rw [hout] at h1
      have := List.append_cancel_left h1
      cases this
      exact h2
    have hget : s.dec.generateAck.out[s.dec.out.length]? = some a := by rw [hout]; simp
    have hw := ha a hget
    have hr : ReachLate c true { s with dec := s.dec.generateAck } := .step (a := .genAck) h trivial rfl
    obtain ⟨_, _, _, _, _, _, u2, hI2⟩ := late_of_reachLate hc hr
    have hmem : a ∈ (({ s with dec := s.dec.generateAck } : Sys).hyb u2).dec.out := by
      show a ∈ s.dec.generateAck.out
      rw [hout]; simp
    have ho := hI2.inv.acks.out a hmem
    refine ⟨{ s with enc := s.enc.gotAck.applyAck c.F a, dec := s.dec.generateAck, errs := s.errs }, ?_, ?_, rfl, rfl⟩
    · simp only [Sys.step, hget]
      rw [Enc.notify_of_ack c.F c.dbg s.enc (getPacketType_ack a), readAck_writeAck a ho.2.2 hw]
      rfl
    · show eraseIds s.enc.sources a.ids = _
      refine (eraseIds_eq _ _ hI.inv.enc.srcSorted ho.1).trans (List.filter_congr (fun x hx => ?_))
      have hx' : x.id ∈ s.enc.win := List.mem_map_of_mem hx
      have hge : L ≤ x.id := hI.inv.win_ge hx'
      have : x.id ∈ a.ids ↔ s.dec.det.Knows x.id := by
        rw [hids]
        refine ⟨Or.inr, fun hk => ?_⟩
        have h2 := (OMap.has_iff _ _).1 ((hI.inv.dinv.core.has_src x.id).2 ⟨hI.known_of_knows hk, hge⟩)
        show x.id ∈ s.dec.det.sources.keys
        rw [← hI.ord.like.same.sources]
        exact h2
      simp only [this]

/-- **C61** with late sources: if the decoder knows all that is in the window, an ack round trip empties it. -/
theorem C61_empties_late_partial (hc : c.Ok) (h : ReachLate c io s) (s1 : Sys) (h1 : s.step c .genAck = .ok s1)
    (ha : AllowedLate c s1 (.ack s.dec.out.length)) (hk : ∀ x ∈ s.enc.sources, s.dec.det.Knows x.id) :
    ∃ s2, s1.step c (.ack s.dec.out.length) = .ok s2 ∧ s2.enc.window = 0 := by
  obtain ⟨s2, h2, h3, -⟩ := C61_ack_round_trip_late_partial hc h s1 h1 ha
  refine ⟨s2, h2, ?_⟩
  show s2.enc.sources.length = 0
  rw [h3, List.filter_eq_nil_iff.2 (fun x hx => by simpa using hk x hx)]
  rfl

/-- Source 2 is overtaken by a repair, with ordering. -/
example : ReachLate (cfg8 true) true (lateReached (cfg8 true) true (demoLate.take 7)) := lateReached_reach (by decide +kernel)
example : ((lateReached (cfg8 true) true (demoLate.take 7)).enc.sources.map (·.id)) = [0, 1, 2] ∧
    ((lateReached (cfg8 true) true (demoLate.take 9)).enc.sources.map (·.id)) = [] := by decide +kernel

/-! ## C62 -/

variable {gf : GF w} {F : F64} {dbg : Bool}

/-- A repair lists the sources it was made of. -/
theorem encodeRepair_ids {rid : Nat} {S : List ESource} {r : ERepair} (h : encodeRepair gf dbg rid S = .ok r) :
    ∀ x ∈ r.ids, x ∈ S.map (·.id) := by
  cases S with
  | nil => exact absurd rfl (encodeRepair_ne h)
  | cons s t =>
    simp only [encodeRepair, bind_ok_iff] at h
    obtain ⟨sym, -, h2⟩ := h
    generalize hr0 : (⟨rid, [s.id], mulSize gf (BitVec.ofNat 16 s.size) (coefficient w rid s.id), sym⟩ : ERepair) = r0 at h2
    have h0 : ∀ x ∈ r0.ids, x ∈ (s :: t).map (·.id) := by rw [← hr0]; simp
    clear hr0
    have key : ∀ (u : List ESource) (r0 : ERepair), (∀ y ∈ u, y ∈ s :: t) → (∀ x ∈ r0.ids, x ∈ (s :: t).map (·.id)) →
        u.foldlM (encodeStep gf) r0 = .ok r → ∀ x ∈ r.ids, x ∈ (s :: t).map (·.id) := by
      intro u
      induction u with
      | nil => intro r0 _ h0 h2; cases h2; exact h0
      | cons y u ih =>
        intro r0 hu h0 h2
        rw [List.foldlM_cons] at h2
        obtain ⟨r1, h3, h4⟩ := (bind_ok_iff).1 h2
        refine ih r1 (fun z hz => hu z (List.mem_cons_of_mem _ hz)) ?_ h4
        simp only [encodeStep, bind_ok_iff, pure_ok_iff] at h3
        obtain ⟨_, _, rfl⟩ := h3
        intro x hx
        simp only [mem_setInsert] at hx
        rcases hx with rfl | hx
        · exact List.mem_map_of_mem (hu y List.mem_cons_self)
        · exact h0 x hx
    exact key t r0 (fun y hy => List.mem_cons_of_mem _ hy) h0 h2

/-- A call only adds to what was emitted. -/
theorem act_out {e e' : Enc} {a : EAct} (h : e.act gf F dbg a = .ok e') : ∃ new, e'.out = e.out ++ new := by
  by_cases ha : ∃ d, a = .commit d
  · obtain ⟨d, rfl⟩ := ha
    obtain ⟨e1, e2, rfl, h2, -, h4⟩ := commit_inv h
    rcases h2 with ⟨hs, rfl⟩ | ⟨hs, r1, h1, rfl⟩ <;> rcases h4 with ⟨-, rfl⟩ | ⟨-, r2, h2, rfl⟩ <;>
      simp [Enc.sentSource, Enc.sentRepair]
  · rcases (act_other (fun d hd => ha ⟨d, hd⟩) h).2.2 with ⟨-, r, -, rfl⟩ | ⟨-, -, -, -, h1⟩
    · exact ⟨_, rfl⟩
    · exact ⟨[], by simp [h1]⟩

/-- **C62.** A source that has left the window, for whatever reason, never comes back, and no repair emitted from then on lists it. -/
theorem C62_gone {acts acts2 : List EAct} {e e2 : Enc} (hn : (commitsOf (acts ++ acts2)).length ≤ 2 ^ 32)
    (h : Enc.init.after gf F dbg acts = .ok e) (h2 : e.after gf F dbg acts2 = .ok e2) {x : Nat}
    (hx : x < (commitsOf acts).length) (hgone : x ∉ e.sources.map (·.id)) :
    x ∉ e2.sources.map (·.id) ∧ ∃ new, e2.out = e.out ++ new ∧ ∀ r ∈ repairsOf new, x ∉ r.ids := by
  have key : ∀ acts2 e2, e.after gf F dbg acts2 = .ok e2 → (commitsOf (acts ++ acts2)).length ≤ 2 ^ 32 →
      Enc.init.after gf F dbg (acts ++ acts2) = .ok e2 ∧ x ∉ e2.sources.map (·.id) ∧
        ∃ new, e2.out = e.out ++ new ∧ ∀ r ∈ repairsOf new, x ∉ r.ids := by
    refine after_induct (Q := fun acts2 e2 => (commitsOf (acts ++ acts2)).length ≤ 2 ^ 32 →
      Enc.init.after gf F dbg (acts ++ acts2) = .ok e2 ∧ x ∉ e2.sources.map (·.id) ∧
        ∃ new, e2.out = e.out ++ new ∧ ∀ r ∈ repairsOf new, x ∉ r.ids) e ?_ ?_
    · intro _
      exact ⟨by simpa using h, hgone, [], by simp, by rintro r ⟨⟩⟩
    · intro acts2 e2 a e3 _ hq ha hn
      rw [← List.append_assoc, commitsOf_append, List.length_append] at hn
      obtain ⟨h1, hno, new, hnew, hall⟩ := hq (by omega)
      have h' : Enc.init.after gf F dbg (acts ++ (acts2 ++ [a])) = .ok e3 := by
        rw [← List.append_assoc]
        unfold Enc.after at h1 ⊢
        rw [List.foldlM_append, h1]
        simp only [bind, Except.bind, List.foldlM_cons, ha, List.foldlM_nil]; rfl
      have hno3 : x ∉ e3.sources.map (·.id) := by
        obtain ⟨hc, ho⟩ := C25_newest ha
        by_cases hd : ∃ d, a = .commit d
        · obtain ⟨d, rfl⟩ := hd
          obtain ⟨old, h3, h4⟩ := hc d rfl
          rw [h3, List.map_append, List.mem_append]
          rintro (h5 | h5)
          · exact hno ((h4.map _).subset h5)
          · have hcur := (eHist h1).curSrc
            have hlt : (commitsOf (acts ++ acts2)).length < 2 ^ 32 := by
              have : (commitsOf [EAct.commit d]).length = 1 := rfl
              omega
            rw [Nat.mod_eq_of_lt hlt] at hcur
            have : x = e2.curSrc := by simpa using h5
            rw [commitsOf_append, List.length_append] at hcur
            omega
        · exact fun h5 => hno (((ho (fun d h => hd ⟨d, h⟩)).map _).subset h5)
      obtain ⟨new2, hnew2⟩ := act_out ha
      refine ⟨h', hno3, new ++ new2, by rw [hnew2, hnew, List.append_assoc], ?_⟩
      intro r hr
      rw [repairsOf_append, List.mem_append] at hr
      rcases hr with hr | hr
      · exact hall r hr
      · have : e3.out.drop e2.out.length = new2 := by rw [hnew2]; simp
        obtain ⟨rid, h6⟩ := new_repairs ha (r := r) (by rw [this]; exact hr)
        exact fun hxr => hno3 (encodeRepair_ids h6 x hxr)
  exact (key acts2 e2 h2 hn).2

/-- **C62.** A source named by an ack that was received is listed by no repair emitted later, whatever follows. -/
theorem C62_acked {acts acts2 : List EAct} {e e1 e2 : Enc} {p : List Byte} {k : Ack} {n : Nat}
    (hn : (commitsOf (acts ++ acts2)).length ≤ 2 ^ 32)
    (h : Enc.init.after gf F dbg acts = .ok e) (hp : getPacketType p = .ok .ack) (hk : readAck p = .ok (k, n))
    (h1 : e.act gf F dbg (.packet p) = .ok e1) (h2 : e1.after gf F dbg acts2 = .ok e2) {x : Nat}
    (hx : x < (commitsOf acts).length) (hxk : x ∈ k.ids) :
    ∃ new, e2.out = e.out ++ new ∧ ∀ r ∈ repairsOf new, x ∉ r.ids := by
  have hn0 : (commitsOf acts).length ≤ 2 ^ 32 := by
    rw [commitsOf_append, List.length_append] at hn; omega
  obtain ⟨e', h3, h4, h5, -⟩ := C23_ack_removes hn0 h hp hk
  have he : e1 = e' := by
    simp only [Enc.act] at h1
    rw [h3] at h1
    cases h1; rfl
  subst he
  have h' : Enc.init.after gf F dbg (acts ++ [.packet p]) = .ok e1 := by
    unfold Enc.after at h ⊢
    rw [List.foldlM_append, h]
    simp only [bind, Except.bind, List.foldlM_cons, h1, List.foldlM_nil]; rfl
  have hcs : commitsOf (acts ++ [EAct.packet p]) = commitsOf acts := by rw [commitsOf_append]; simp [commitsOf]
  obtain ⟨-, new, h6, h7⟩ := C62_gone (by rw [commitsOf_append, hcs, ← commitsOf_append]; exact hn) h' h2 (x := x) (by rw [hcs]; exact hx)
    (by rw [h4]; intro hm; obtain ⟨s, hs, rfl⟩ := List.mem_map.1 hm; have := (List.mem_filter.1 hs).2; simp_all)
  exact ⟨new, by rw [h6, h5], h7⟩

/-- The ack of source 0 takes it out of the repairs that follow. -/
example : ((Enc.init.after gf8 F0 false [.setRate 2, .commit [1], .commit [2], .packet (writeAck ⟨[0], 1⟩).flatten,
    .commit [3], .commit [4]]).map (fun e => (repairsOf e.out).map (·.ids))).toOption = some [[0, 1], [1, 2, 3]] := by decide +kernel

/-- That `x` was committed before the ack is needed: an ack can name a source not committed yet, which is listed later. -/
example : ((Enc.init.after gf8 F0 false [.setRate 2, .packet (writeAck ⟨[0], 1⟩).flatten,
    .commit [3], .commit [4]]).map (fun e => (repairsOf e.out).map (·.ids))).toOption = some [[0, 1]] := by decide +kernel

end Netcode
