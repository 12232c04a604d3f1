import Verif.Spec.EncHist
import Verif.Proofs.EncInv
import Verif.Proofs.Notify
import Verif.Proofs.SysInv

/-!
# Facts on the histories of an encoder
-/

namespace Netcode

variable {w : Nat}

/-! ## Sums -/

theorem byteSum_foldl (l : List Byte) (a : Byte) : l.foldl (· ^^^ ·) a = a ^^^ byteSum l := by
  unfold byteSum
  induction l generalizing a with
  | nil => simp
  | cons x t ih =>
    rw [List.foldl_cons, ih, List.foldl_cons, ih (0#8 ^^^ x), BitVec.zero_xor, BitVec.xor_assoc]

theorem byteSum_cons (x : Byte) (l : List Byte) : byteSum (x :: l) = x ^^^ byteSum l := by
  unfold byteSum
  rw [List.foldl_cons, byteSum_foldl, BitVec.zero_xor]; rfl

theorem sizeSum_foldl (l : List (BitVec 16)) (a : BitVec 16) : l.foldl (· ^^^ ·) a = a ^^^ sizeSum l := by
  unfold sizeSum
  induction l generalizing a with
  | nil => simp
  | cons x t ih =>
    rw [List.foldl_cons, ih, List.foldl_cons, ih (0#16 ^^^ x), BitVec.zero_xor, BitVec.xor_assoc]

theorem sizeSum_cons (x : BitVec 16) (l : List (BitVec 16)) : sizeSum (x :: l) = x ^^^ sizeSum l := by
  unfold sizeSum
  rw [List.foldl_cons, sizeSum_foldl, BitVec.zero_xor]; rfl

theorem xorPrefix_getD (d x : List Byte) (h : x.length ≤ d.length) (j : Nat) :
    (xorPrefix d x).getD j 0#8 = d.getD j 0#8 ^^^ x.getD j 0#8 := by
  induction d generalizing x j with
  | nil =>
    cases x with
    | nil => simp [xorPrefix]
    | cons => simp at h
  | cons a t ih =>
    cases x with
    | nil => simp [xorPrefix]
    | cons b u =>
      cases j with
      | zero => simp [xorPrefix]
      | succ j => simpa [xorPrefix] using ih u (by simpa using h) j

section
variable [Fact (0 < w)]

/-- The sum of the products, over a buffer. -/
def codedFrom (gf : GF w) (rid : Nat) (S : List ESource) (b : List Byte) : List Byte :=
  S.foldl (fun acc s => xorPrefix acc (mulRegion gf (coefficient w rid s.id) s.sym)) b

omit [Fact (0 < w)] in
theorem codedFrom_length (gf : GF w) (rid : Nat) (S : List ESource) (b : List Byte) :
    (codedFrom gf rid S b).length = b.length := by
  unfold codedFrom
  induction S generalizing b with
  | nil => rfl
  | cons s t ih => rw [List.foldl_cons, ih, xorPrefix_length]

omit [Fact (0 < w)] in
theorem codedFrom_getD (gf : GF w) (rid : Nat) (S : List ESource) (b : List Byte)
    (h : ∀ s ∈ S, s.sym.length ≤ b.length) (j : Nat) :
    (codedFrom gf rid S b).getD j 0#8 = b.getD j 0#8 ^^^
      byteSum (S.map fun s => (mulRegion gf (coefficient w rid s.id) s.sym).getD j 0#8) := by
  unfold codedFrom
  induction S generalizing b with
  | nil => simp [byteSum]
  | cons s t ih =>
    rw [List.foldl_cons, ih _ (fun x hx => by rw [xorPrefix_length]; exact h x (by simp [hx])),
      xorPrefix_getD _ _ (by rw [mulRegion_length]; exact h s (by simp)), List.map_cons, byteSum_cons, BitVec.xor_assoc]

theorem codedFrom_vec (gf : GF w) (rid : Nat) (S : List ESource) (b : List Byte)
    (h : ∀ s ∈ S, s.sym.length ≤ b.length) (h8 : ∀ s ∈ S, 8 * s.sym.length % w = 0) :
    vec gf (codedFrom gf rid S b) = vec gf b + (S.map fun s => toFE gf (coefficient w rid s.id) • vec gf s.sym).sum := by
  unfold codedFrom
  induction S generalizing b with
  | nil => simp
  | cons s t ih =>
    rw [List.foldl_cons, ih _ (fun x hx => by rw [xorPrefix_length]; exact h x (by simp [hx])) (fun x hx => h8 x (by simp [hx])),
      vec_xorPrefix gf _ _ (by rw [mulRegion_length]; exact h s (by simp)), vec_mulRegion gf _ _ (h8 s (by simp)),
      List.map_cons, List.sum_cons, add_assoc]

theorem sizeSum_trunc (gf : GF w) (hv : ValidW w) (rid : Nat) (S : List ESource) :
    IsTrunc gf (sizeSum (S.map fun s => mulSize gf (BitVec.ofNat 16 s.sym.length) (coefficient w rid s.id)))
      ((S.map fun s => toFE gf (coefficient w rid s.id) • szVec gf (BitVec.ofNat 16 s.sym.length)).sum) := by
  induction S with
  | nil => exact isTrunc_zero
  | cons s t ih =>
    rw [List.map_cons, List.map_cons, sizeSum_cons, List.sum_cons]
    exact isTrunc_xor (mulSize_trunc gf hv _ _) ih

theorem isRepairOf_of_encOk (gf : GF w) (hv : ValidW w) {rid : Nat} {S : List ESource} {r : ERepair}
    (h : EncOk gf rid S r) (hd : ∀ s ∈ S, DataOk w s.sym) : IsRepairOf gf rid S r := by
  have e : r.sym = codedFrom gf rid S (List.replicate r.sym.length 0#8) := by
    refine vec_inj gf Fact.out (by rw [codedFrom_length, List.length_replicate]) ?_
    rw [codedFrom_vec gf rid S _ (fun s hs => by rw [List.length_replicate]; exact h.len s hs) (fun s hs => (hd s hs).2.2), h.vec]
    have h0 : vec gf (List.replicate r.sym.length 0#8) = 0 := by
      have := vec_append_zeros gf [] r.sym.length
      rw [List.nil_append, vec_nil] at this; exact this
    rw [h0, zero_add]
  refine ⟨h.id, h.ids, ⟨h.len, ?_⟩, ?_, ?_⟩
  · obtain ⟨s, hs, e⟩ := h.lenEx; exact ⟨s, hs, e.symm⟩
  · intro j
    rw [e, codedFrom_getD gf rid S _ (fun s hs => by rw [List.length_replicate]; exact h.len s hs)]
    have : (List.replicate r.sym.length 0#8).getD j 0#8 = 0#8 := by
      rw [List.getD_eq_getElem?_getD, List.getElem?_replicate]; split <;> rfl
    rw [this, BitVec.zero_xor]
  · exact isTrunc_unique h.enc (sizeSum_trunc gf hv rid S)

end

/-! ## One call -/

variable {gf : GF w} {F : F64} {dbg : Bool} {e e' : Enc}

/-- The encoder after emitting a repair. -/
def Enc.sentRepair (e : Enc) (r : ERepair) : Enc :=
  { e with curRep := (e.curRep + 1) % 2 ^ 32, nbSentRepairs := e.nbSentRepairs + 1,
           nbSentPackets := (e.nbSentPackets + 1) % 2 ^ 16, out := e.out ++ [.repair r] }

/-- The encoder after emitting a source. -/
def Enc.sentSource (e : Enc) (s : ESource) : Enc :=
  { e with nbSentSources := e.nbSentSources + 1, nbSentPackets := (e.nbSentPackets + 1) % 2 ^ 16,
           out := e.out ++ [.source s] }

theorem generateRepair_inv (h : e.generateRepair gf dbg = .ok e') :
    ∃ r, encodeRepair gf dbg e.curRep e.sources = .ok r ∧ e' = e.sentRepair r := by
  unfold Enc.generateRepair at h
  simp only [bind_ok_iff, pure_ok_iff] at h
  obtain ⟨r, h1, -, -, h2⟩ := h
  exact ⟨r, h1, h2.symm⟩

/-- The window a commit leaves room in. -/
def Enc.room (e : Enc) : List ESource := if e.sources.length = e.windowSize then e.sources.tail else e.sources

theorem emitNew_inv {src : ESource} (h : e.emitNew gf dbg src = .ok e') :
    (e.systematic = true ∧ e' = e.sentSource src) ∨
      (e.systematic = false ∧ ∃ r, encodeRepair gf dbg e.curRep e.sources = .ok r ∧ e' = e.sentRepair r) := by
  unfold Enc.emitNew at h
  split at h
  · next hs => cases h; exact .inl ⟨hs, rfl⟩
  · next hs => exact .inr ⟨by simpa using hs, generateRepair_inv h⟩

/-- What happens in a commit: an eviction when the window is full, the new source, one packet, and perhaps one more
repair. -/
theorem commit_inv {d : List Byte} (h : e.commit gf dbg d = .ok e') :
    ∃ e1 e2 : Enc,
      (e1 = { e with sources := e.room ++ [⟨e.curSrc, d⟩] }) ∧
      ((e.systematic = true ∧ e2 = e1.sentSource ⟨e.curSrc, d⟩) ∨
        (e.systematic = false ∧ ∃ r, encodeRepair gf dbg e1.curRep e1.sources = .ok r ∧ e2 = e1.sentRepair r)) ∧
      e.rate ≠ 0 ∧
      (((e.curSrc + 1) % 2 ^ 32 % e.rate ≠ 0 ∧ e' = { e2 with curSrc := (e2.curSrc + 1) % 2 ^ 32 }) ∨
        ((e.curSrc + 1) % 2 ^ 32 % e.rate = 0 ∧ ∃ r, encodeRepair gf dbg e2.curRep e2.sources = .ok r ∧
          e' = { e2.sentRepair r with curSrc := (e2.curSrc + 1) % 2 ^ 32 })) := by
  unfold Enc.commit at h
  simp only [bind_ok_iff, pure_ok_iff] at h
  obtain ⟨-, -, -, -, -, -, -, -, e2, h2, e3, h3, rfl⟩ := h
  refine ⟨_, e2, rfl, ?_, ?_⟩
  · exact emitNew_inv h2
  · have hfr : e2.rate = e.rate ∧ e2.curSrc = e.curSrc := by
      rcases emitNew_inv h2 with ⟨-, rfl⟩ | ⟨-, r, -, rfl⟩ <;> exact ⟨rfl, rfl⟩
    unfold Enc.autoRepair at h3
    simp only [bind_ok_iff] at h3
    obtain ⟨_, h4, h5⟩ := h3
    rw [hfr.1, hfr.2] at h5
    rw [hfr.1] at h4
    have hr : e.rate ≠ 0 := by
      intro h0; rw [h0] at h4; simp [ensure] at h4
    refine ⟨hr, ?_⟩
    split at h5
    · next hc =>
      obtain ⟨r, hr, h6⟩ := generateRepair_inv h5
      subst h6
      exact .inr ⟨hc, r, hr, rfl⟩
    · next hc =>
      cases h5
      exact .inl ⟨hc, rfl⟩

/-- The state after any bytes are given to the encoder: unchanged, one more ack counted, or an ack applied. -/
theorem packet_inv {p : List Byte} (h : e.act gf F dbg (.packet p) = .ok e') :
    e' = e ∨ (getPacketType p = .ok .ack ∧ e' = e.gotAck) ∨
    ∃ a n, getPacketType p = .ok .ack ∧ readAck p = .ok (a, n) ∧ e' = e.gotAck.applyAck F a := by
  simp only [Enc.act] at h
  by_cases hp : p = []
  · subst hp
    cases dbg <;> simp [Enc.notify, cassert, getPacketType, Except.map, bind, Except.bind] at h
  · rcases getPacketType_total hp with ⟨t, ht⟩ | ht
    · by_cases hta : t = .ack
      · subst hta
        rw [Enc.notify_of_ack F dbg e ht] at h
        rcases readAck_total p with ⟨a, n, h1, -⟩ | h1
        · rw [h1] at h
          cases h
          exact .inr (.inr ⟨a, n, ht, h1, rfl⟩)
        · rw [h1] at h
          cases h
          exact .inr (.inl ⟨ht, rfl⟩)
      · rw [Enc.notify_of_other F dbg e hp (by rw [ht]; intro hh; cases hh; exact hta rfl)] at h
        cases h; exact .inl rfl
    · rw [Enc.notify_of_other F dbg e hp (by rw [ht]; intro hh; cases hh)] at h
      cases h; exact .inl rfl

theorem readAck_sorted {p : List Byte} {a : Ack} {n : Nat} (h : readAck p = .ok (a, n)) : Sorted a.ids := by
  rw [readAck_eq] at h
  obtain ⟨⟨a', c⟩, h1, h2⟩ := map_ok_inv h
  cases h2
  unfold ackReader at h1
  obtain ⟨_, _, -, h2⟩ := rbind_inv h1
  obtain ⟨_, _, -, h3⟩ := rbind_inv h2
  obtain ⟨ids, _, h4, h5⟩ := rbind_inv h3
  cases h5
  simp only
  rw [readIds_eq] at h4
  obtain ⟨nb, _, -, h6⟩ := rbind_inv h4
  split at h6
  · cases h6; exact List.Pairwise.nil
  · obtain ⟨_, _, -, h7⟩ := rbind_inv h6
    obtain ⟨_, _, -, h8⟩ := rbind_inv h7
    cases h8
    exact foldl_setInsert_sorted _ _ List.Pairwise.nil

/-! ## Sequences of calls -/

theorem after_induct {Q : List EAct → Enc → Prop} (e0 : Enc) (h0 : Q [] e0)
    (hs : ∀ acts e a e', e0.after gf F dbg acts = .ok e → Q acts e → e.act gf F dbg a = .ok e' → Q (acts ++ [a]) e') :
    ∀ acts e, e0.after gf F dbg acts = .ok e → Q acts e := by
  intro acts
  induction acts using List.reverseRecOn with
  | nil => intro e h; cases h; exact h0
  | append_singleton t a ih =>
    intro e h
    unfold Enc.after at h
    rw [List.foldlM_append] at h
    obtain ⟨e1, h1, h2⟩ := (bind_ok_iff).1 h
    rw [List.foldlM_cons] at h2
    obtain ⟨e2, h3, h4⟩ := (bind_ok_iff).1 h2
    cases h4
    exact hs t e1 a _ h1 (ih e1 h1) h3

theorem commitsOf_append (a b : List EAct) : commitsOf (a ++ b) = commitsOf a ++ commitsOf b := by
  induction a with
  | nil => rfl
  | cons x t ih => cases x <;> simp [commitsOf, ih]

theorem repairsOf_append (a b : List EPkt) : repairsOf (a ++ b) = repairsOf a ++ repairsOf b := by
  induction a with
  | nil => rfl
  | cons x t ih => cases x <;> simp [repairsOf, ih]

theorem sourcesOf_append (a b : List EPkt) : sourcesOf (a ++ b) = sourcesOf a ++ sourcesOf b := by
  induction a with
  | nil => rfl
  | cons x t ih => cases x <;> simp [sourcesOf, ih]

end Netcode

namespace Netcode

variable {w : Nat} {gf : GF w} {F : F64} {dbg : Bool}

/-! ## The invariant of a history -/

/-- What every history establishes. -/
structure EHist (acts : List EAct) (e : Enc) : Prop where
  curSrc : e.curSrc = (commitsOf acts).length % 2 ^ 32
  curRep : e.curRep = e.nbSentRepairs % 2 ^ 32
  reps : e.nbSentRepairs = (repairsOf e.out).length
  srcs : e.nbSentSources = (sourcesOf e.out).length

/-- What histories of at most 2^32 commits establish. -/
structure EWin (acts : List EAct) (e : Enc) : Prop where
  sorted : Sorted (e.sources.map (·.id))
  data : ∀ s ∈ e.sources, (commitsOf acts)[s.id]? = some s.sym
  sent : ∀ s ∈ sourcesOf e.out, (commitsOf acts)[s.id]? = some s.sym
  sentSorted : Sorted ((sourcesOf e.out).map (·.id))

theorem EHist.sentRepair {acts : List EAct} {e : Enc} (h : EHist acts e) (r : ERepair) : EHist acts (e.sentRepair r) := by
  constructor
  · exact h.curSrc
  · show (e.curRep + 1) % 2 ^ 32 = (e.nbSentRepairs + 1) % 2 ^ 32
    rw [h.curRep]; omega
  · show e.nbSentRepairs + 1 = (repairsOf (e.out ++ [.repair r])).length
    rw [repairsOf_append, List.length_append, ← h.reps]; rfl
  · show e.nbSentSources = (sourcesOf (e.out ++ [.repair r])).length
    rw [sourcesOf_append, List.length_append, ← h.srcs]; rfl

theorem EHist.sentSource {acts : List EAct} {e : Enc} (h : EHist acts e) (s : ESource) : EHist acts (e.sentSource s) := by
  constructor
  · exact h.curSrc
  · exact h.curRep
  · show e.nbSentRepairs = (repairsOf (e.out ++ [.source s])).length
    rw [repairsOf_append, List.length_append, ← h.reps]; rfl
  · show e.nbSentSources + 1 = (sourcesOf (e.out ++ [.source s])).length
    rw [sourcesOf_append, List.length_append, ← h.srcs]; rfl

theorem EHist.congr {acts acts' : List EAct} {e e' : Enc} (h : EHist acts e) (h0 : commitsOf acts' = commitsOf acts)
    (h1 : e'.curSrc = e.curSrc) (h2 : e'.curRep = e.curRep)
    (h3 : e'.nbSentRepairs = e.nbSentRepairs) (h4 : e'.nbSentSources = e.nbSentSources) (h5 : e'.out = e.out) :
    EHist acts' e' :=
  ⟨by rw [h1, h0]; exact h.curSrc, by rw [h2, h3]; exact h.curRep, by rw [h3, h5]; exact h.reps, by rw [h4, h5]; exact h.srcs⟩

/-- A call other than a commit. -/
theorem act_other {e e' : Enc} {a : EAct} (ha : ∀ d, a ≠ .commit d) (h : e.act gf F dbg a = .ok e') :
    e'.curSrc = e.curSrc ∧ commitsOf [a] = [] ∧
    ((a = .repair ∧ ∃ r, encodeRepair gf dbg e.curRep e.sources = .ok r ∧ e' = e.sentRepair r) ∨
     (a ≠ .repair ∧ e'.curRep = e.curRep ∧ e'.nbSentRepairs = e.nbSentRepairs ∧ e'.nbSentSources = e.nbSentSources ∧
      e'.out = e.out)) := by
  cases a with
  | commit d => exact absurd rfl (ha d)
  | repair =>
    obtain ⟨r, h1, h2⟩ := generateRepair_inv h
    subst h2
    exact ⟨rfl, rfl, .inl ⟨rfl, r, h1, rfl⟩⟩
  | setRate n =>
    simp only [Enc.act, Enc.setRate, bind_ok_iff, pure_ok_iff] at h
    obtain ⟨_, _, rfl⟩ := h
    exact ⟨rfl, rfl, .inr ⟨by simp, rfl, rfl, rfl, rfl⟩⟩
  | setWindow n =>
    simp only [Enc.act, Enc.setWindowSize, bind_ok_iff, pure_ok_iff] at h
    obtain ⟨_, _, rfl⟩ := h
    exact ⟨rfl, rfl, .inr ⟨by simp, rfl, rfl, rfl, rfl⟩⟩
  | setAdaptive b => cases h; exact ⟨rfl, rfl, .inr ⟨by simp, rfl, rfl, rfl, rfl⟩⟩
  | setSystematic b => cases h; exact ⟨rfl, rfl, .inr ⟨by simp, rfl, rfl, rfl, rfl⟩⟩
  | packet p =>
    rcases packet_inv h with rfl | ⟨-, rfl⟩ | ⟨a, n, -, -, rfl⟩ <;>
      exact ⟨rfl, rfl, .inr ⟨by simp, rfl, rfl, rfl, rfl⟩⟩

/-- The sources after a call other than a commit: those of before, or those an ack leaves. -/
theorem act_sources {e e' : Enc} {a : EAct} (ha : ∀ d, a ≠ .commit d) (h : e.act gf F dbg a = .ok e') :
    e'.sources = e.sources ∨ ∃ p k n, a = .packet p ∧ getPacketType p = .ok .ack ∧ readAck p = .ok (k, n) ∧
      e'.sources = eraseIds e.sources k.ids := by
  cases a with
  | commit d => exact absurd rfl (ha d)
  | repair =>
    obtain ⟨r, h1, h2⟩ := generateRepair_inv h
    subst h2; exact .inl rfl
  | setRate n =>
    simp only [Enc.act, Enc.setRate, bind_ok_iff, pure_ok_iff] at h
    obtain ⟨_, _, rfl⟩ := h; exact .inl rfl
  | setWindow n =>
    simp only [Enc.act, Enc.setWindowSize, bind_ok_iff, pure_ok_iff] at h
    obtain ⟨_, _, rfl⟩ := h; exact .inl rfl
  | setAdaptive b => cases h; exact .inl rfl
  | setSystematic b => cases h; exact .inl rfl
  | packet p =>
    rcases packet_inv h with rfl | ⟨-, rfl⟩ | ⟨a, n, h1, h2, rfl⟩
    · exact .inl rfl
    · exact .inl rfl
    · exact .inr ⟨p, a, n, rfl, h1, h2, rfl⟩

/-- The sources after a commit, and the sources it emits. -/
theorem commit_sources {e e' : Enc} {d : List Byte} (h : e.commit gf dbg d = .ok e') :
    e'.sources = e.room ++ [⟨e.curSrc, d⟩] ∧
    sourcesOf e'.out = sourcesOf e.out ++ (if e.systematic then [⟨e.curSrc, d⟩] else []) := by
  obtain ⟨e1, e2, rfl, h2, h3, h4⟩ := commit_inv h
  rcases h2 with ⟨hs, rfl⟩ | ⟨hs, r, -, rfl⟩ <;> rcases h4 with ⟨-, rfl⟩ | ⟨-, r2, -, rfl⟩ <;>
    simp [Enc.sentSource, Enc.sentRepair, sourcesOf_append, sourcesOf, hs]

theorem eHist_step {acts : List EAct} {e e' : Enc} {a : EAct} (hi : EHist acts e) (h : e.act gf F dbg a = .ok e') :
    EHist (acts ++ [a]) e' := by
  by_cases ha : ∃ d, a = .commit d
  · obtain ⟨d, rfl⟩ := ha
    obtain ⟨e1, e2, rfl, h2, h3, h4⟩ := commit_inv h
    have hi1 : EHist acts { e with sources := e.room ++ [⟨e.curSrc, d⟩] } := hi.congr rfl rfl rfl rfl rfl rfl
    have hi2 : EHist acts e2 := by
      rcases h2 with ⟨-, rfl⟩ | ⟨-, r, -, rfl⟩
      · exact hi1.sentSource _
      · exact hi1.sentRepair _
    have key : ∀ e3 : Enc, EHist acts e3 → e3.curSrc = e2.curSrc →
        EHist (acts ++ [.commit d]) { e3 with curSrc := (e2.curSrc + 1) % 2 ^ 32 } := by
      intro e3 h3 hc
      refine ⟨?_, h3.curRep, h3.reps, h3.srcs⟩
      show (e2.curSrc + 1) % 2 ^ 32 = _
      rw [hi2.curSrc, commitsOf_append]
      simp only [commitsOf, List.length_append, List.length_singleton]; omega
    rcases h4 with ⟨-, rfl⟩ | ⟨-, r, -, rfl⟩
    · exact key e2 hi2 rfl
    · exact key _ (hi2.sentRepair r) rfl
  · have ha' : ∀ d, a ≠ .commit d := fun d hd => ha ⟨d, hd⟩
    obtain ⟨h1, h2, h3⟩ := act_other ha' h
    have hc : commitsOf (acts ++ [a]) = commitsOf acts := by rw [commitsOf_append, h2, List.append_nil]
    rcases h3 with ⟨-, r, -, rfl⟩ | ⟨-, h4, h5, h6, h7⟩
    · exact (hi.sentRepair r).congr hc rfl rfl rfl rfl rfl
    · exact hi.congr hc h1 h4 h5 h6 h7

theorem eHist {acts : List EAct} {e : Enc} (h : Enc.init.after gf F dbg acts = .ok e) : EHist acts e :=
  after_induct _ ⟨rfl, rfl, rfl, rfl⟩ (fun _ _ _ _ _ hi h => eHist_step hi h) acts e h

theorem eraseIds_sublist (S : List ESource) (ids : List Nat) : List.Sublist (eraseIds S ids) S := by
  match S, ids with
  | [], _ => simp [eraseIds]
  | s :: t, [] => simp [eraseIds]
  | s :: t, i :: u =>
    unfold eraseIds
    split
    · exact (eraseIds_sublist t u).cons _
    · split
      · exact eraseIds_sublist (s :: t) u
      · exact (eraseIds_sublist t (i :: u)).cons₂ _
termination_by S.length + ids.length

theorem room_sublist (e : Enc) : List.Sublist e.room e.sources := by
  unfold Enc.room; split
  · exact List.tail_sublist _
  · exact List.Sublist.refl _

theorem eWin {acts : List EAct} {e : Enc} (h : Enc.init.after gf F dbg acts = .ok e)
    (hn : (commitsOf acts).length ≤ 2 ^ 32) : EWin acts e := by
  refine (after_induct (Q := fun acts e => EHist acts e ∧ ((commitsOf acts).length ≤ 2 ^ 32 → EWin acts e)) _ ?_ ?_ acts e h).2 hn
  · exact ⟨⟨rfl, rfl, rfl, rfl⟩, fun _ => ⟨List.Pairwise.nil, (by rintro _ ⟨⟩), (by rintro _ ⟨⟩), List.Pairwise.nil⟩⟩
  rintro acts e a e' - ⟨hi, hq⟩ hs
  refine ⟨eHist_step hi hs, fun hn => ?_⟩
  rw [commitsOf_append, List.length_append] at hn
  have hw := hq (by omega)
  have hext : ∀ (x : Nat) (d : List Byte), (commitsOf acts)[x]? = some d → (commitsOf (acts ++ [a]))[x]? = some d := by
    intro x d hx
    rw [commitsOf_append, List.getElem?_append_left (getElem?_lt hx)]; exact hx
  by_cases ha : ∃ d, a = .commit d
  · obtain ⟨d, rfl⟩ := ha
    obtain ⟨h1, h2⟩ := commit_sources hs
    have hlt : (commitsOf acts).length < 2 ^ 32 := by simpa [commitsOf] using hn
    have hcur : e.curSrc = (commitsOf acts).length := by rw [hi.curSrc]; exact Nat.mod_eq_of_lt hlt
    have hnew : (commitsOf (acts ++ [.commit d]))[e.curSrc]? = some d := by
      rw [commitsOf_append, hcur]; simp [commitsOf]
    have hroom := room_sublist e
    constructor
    · rw [h1, List.map_append, Sorted, List.pairwise_append]
      refine ⟨hw.sorted.sublist (hroom.map _), by simp, ?_⟩
      intro x hx y hy
      obtain ⟨s, hs, rfl⟩ := List.mem_map.1 hx
      simp only [List.map_cons, List.map_nil, List.mem_singleton] at hy
      subst hy
      rw [hcur]; exact getElem?_lt (hw.data s (hroom.subset hs))
    · rw [h1]
      intro s hs
      rcases List.mem_append.1 hs with hs | hs
      · exact hext _ _ (hw.data s (hroom.subset hs))
      · simp only [List.mem_singleton] at hs; subst hs; exact hnew
    · rw [h2]
      intro s hs
      rcases List.mem_append.1 hs with hs | hs
      · exact hext _ _ (hw.sent s hs)
      · split at hs
        · simp only [List.mem_singleton] at hs; subst hs; exact hnew
        · cases hs
    · rw [h2, List.map_append, Sorted, List.pairwise_append]
      refine ⟨hw.sentSorted, by split <;> simp, ?_⟩
      intro x hx y hy
      obtain ⟨s, hs, rfl⟩ := List.mem_map.1 hx
      split at hy
      · simp only [List.map_cons, List.map_nil, List.mem_singleton] at hy
        subst hy
        rw [hcur]; exact getElem?_lt (hw.sent s hs)
      · cases hy
  · have ha' : ∀ d, a ≠ .commit d := fun d hd => ha ⟨d, hd⟩
    have hsub : List.Sublist e'.sources e.sources := by
      rcases act_sources ha' hs with h1 | ⟨p, k, n, -, -, hk, h1⟩
      · rw [h1]
      · rw [h1, eraseIds_eq _ _ hw.sorted (readAck_sorted hk)]; exact List.filter_sublist
    have hout : sourcesOf e'.out = sourcesOf e.out := by
      rcases (act_other ha' hs).2.2 with ⟨-, r, -, rfl⟩ | ⟨-, -, -, -, h1⟩
      · simp [Enc.sentRepair, sourcesOf_append, sourcesOf]
      · rw [h1]
    exact ⟨hw.sorted.sublist (hsub.map _), fun s hs => hext _ _ (hw.data s (hsub.subset hs)),
      fun s hs => hext _ _ (hw.sent s (hout ▸ hs)), by rw [hout]; exact hw.sentSorted⟩

theorem mem_eraseIds {S : List ESource} {ids : List Nat} {s : ESource} (hs : s ∈ S) (hn : s.id ∉ ids) :
    s ∈ eraseIds S ids := by
  match S, ids with
  | [], _ => cases hs
  | x :: t, [] => simpa [eraseIds] using hs
  | x :: t, i :: u =>
    unfold eraseIds
    have hn2 : s.id ∉ u := fun h => hn (List.mem_cons_of_mem _ h)
    split
    · next e =>
      rcases List.mem_cons.1 hs with rfl | hs
      · exact absurd (by rw [e]; simp) hn
      · exact mem_eraseIds hs hn2
    · split
      · exact mem_eraseIds hs hn2
      · rcases List.mem_cons.1 hs with rfl | hs
        · exact List.mem_cons_self
        · exact List.mem_cons_of_mem _ (mem_eraseIds hs hn)
termination_by S.length + ids.length

/-- The code after a sequence of calls. -/
def codeAfter : Bool → List EAct → Bool
  | s, [] => s
  | _, .setSystematic b :: t => codeAfter b t
  | s, _ :: t => codeAfter s t

theorem codeAfter_append (s : Bool) (a b : List EAct) : codeAfter s (a ++ b) = codeAfter (codeAfter s a) b := by
  induction a generalizing s with
  | nil => rfl
  | cons x t ih => cases x <;> simp [codeAfter, ih]

theorem nonSystematicOf_append (s : Bool) (a b : List EAct) :
    nonSystematicOf s (a ++ b) = nonSystematicOf s a + nonSystematicOf (codeAfter s a) b := by
  induction a generalizing s with
  | nil => simp [nonSystematicOf, codeAfter]
  | cons x t ih => cases x <;> simp [nonSystematicOf, codeAfter, ih, Nat.add_assoc]

theorem readSource_writeSource_any (s : ESource) (hi : s.id < 2 ^ 32) :
    readSource (writeSource s).flatten
      = .ok ({ id := s.id, sym := s.sym.take (s.sym.length % 2 ^ 16) }, 7 + s.sym.length % 2 ^ 16) := by
  have hk : s.sym.length % 2 ^ 16 ≤ s.sym.length := Nat.mod_le _ _
  have e : (writeSource s).flatten = (beBytes 1 2 ++ (beBytes 4 s.id ++ (beBytes 2 s.sym.length ++
      (s.sym.take (s.sym.length % 2 ^ 16) ++ [])))) ++ s.sym.drop (s.sym.length % 2 ^ 16) := by
    simp [writeSource]
  have r2 := reads_int 4 s.id
  rw [Nat.mod_eq_of_lt (by simpa using hi)] at r2
  have r3 := reads_int 2 s.sym.length
  have r4 := reads_skip (s.sym.take (s.sym.length % 2 ^ 16))
  rw [List.length_take, Nat.min_eq_left hk] at r4
  have h : Reads headReader (beBytes 1 2 ++ (beBytes 4 s.id ++ (beBytes 2 s.sym.length ++
      (s.sym.take (s.sym.length % 2 ^ 16) ++ [])))) (s.id, s.sym.length % 2 ^ 16) :=
    reads_bind (reads_int 1 2) (reads_bind r2 (reads_bind r3 (reads_bind r4 (reads_pure _))))
  obtain ⟨c', e1, _, hp⟩ := h (writeSource s).flatten (whole _) _ (by rw [← e]; exact at_whole _)
  rw [readSource_eq, e1]
  simp only [Except.map, Except.ok.injEq, Prod.mk.injEq, DSource.mk.injEq, true_and]
  constructor
  · have : (writeSource s).flatten = (beBytes 1 2 ++ beBytes 4 s.id ++ beBytes 2 s.sym.length) ++ s.sym := by
      simp [writeSource]
    rw [this, List.drop_append_of_le_length (by simp [beBytes_length, headerSize]),
      List.drop_of_length_le (by simp [beBytes_length, headerSize])]
    simp
  · rw [hp]; simp [whole, beBytes_length, Nat.min_eq_left hk]; omega

end Netcode
