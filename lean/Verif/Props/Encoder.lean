import Verif.Proofs.EncHist
import Verif.Proofs.Check
import Verif.Proofs.SysFacts

/-!
# Properties of the encoder

For all histories of an encoder (`Verif/Spec/EncHist.lean`): any calls of its interface in any order, with any data
and any bytes received.  A history is one whose calls all returned.  Where identifiers matter there are at most 2^32
commits, since identifiers are 32 bits wide.
-/

namespace Netcode

variable {w : Nat} {gf : GF w} {F : F64} {dbg : Bool}

/-! ## C18 -/

/-- The repairs a commit or a forced repair emits come from the window it leaves. -/
theorem new_repairs {e e' : Enc} {a : EAct} (h : e.act gf F dbg a = .ok e') {r : ERepair}
    (hr : r ∈ repairsOf (e'.out.drop e.out.length)) : ∃ rid, encodeRepair gf dbg rid e'.sources = .ok r := by
  by_cases ha : ∃ d, a = .commit d
  · obtain ⟨d, rfl⟩ := ha
    obtain ⟨e1, e2, rfl, h2, -, h4⟩ := commit_inv h
    rcases h2 with ⟨hs, rfl⟩ | ⟨hs, r1, h1, rfl⟩ <;> rcases h4 with ⟨-, rfl⟩ | ⟨-, r2, h2, rfl⟩
    · simp [Enc.sentSource, repairsOf] at hr
    · simp [Enc.sentSource, Enc.sentRepair, repairsOf] at hr
      subst hr; exact ⟨_, h2⟩
    · simp [Enc.sentRepair, repairsOf] at hr
      subst hr; exact ⟨_, h1⟩
    · simp [Enc.sentRepair, repairsOf] at hr
      rcases hr with rfl | rfl
      · exact ⟨_, h1⟩
      · exact ⟨_, h2⟩
  · rcases (act_other (fun d hd => ha ⟨d, hd⟩) h).2.2 with ⟨-, r1, h1, rfl⟩ | ⟨-, -, -, -, h1⟩
    · simp [Enc.sentRepair, repairsOf] at hr; subst hr; exact ⟨_, h1⟩
    · rw [h1] at hr; simp [repairsOf] at hr

theorem encodeRepair_ne {rid : Nat} {S : List ESource} {r : ERepair} (h : encodeRepair gf dbg rid S = .ok r) : S ≠ [] := by
  rintro rfl; unfold encodeRepair at h; cases dbg <;> cases h

/-- **C18.** Each repair emitted by a call is the repair of exactly the sources in the window when it is emitted:
it lists their identifiers and carries the sums of their data and sizes weighted by the coefficients. -/
theorem C18_repair_of_window (hv : ValidW w) {acts : List EAct} {e e' : Enc} {a : EAct}
    (hn : (commitsOf (acts ++ [a])).length ≤ 2 ^ 32) (hd : ∀ d ∈ commitsOf (acts ++ [a]), DataOk w d)
    (h : Enc.init.after gf F dbg acts = .ok e) (ha : e.act gf F dbg a = .ok e') :
    ∀ r ∈ repairsOf (e'.out.drop e.out.length), IsRepairOf gf r.id e'.sources r := by
  have := fact_of_valid hv
  intro r hr
  obtain ⟨rid, h1⟩ := new_repairs ha hr
  have h' : Enc.init.after gf F dbg (acts ++ [a]) = .ok e' := by
    unfold Enc.after at h ⊢
    rw [List.foldlM_append, h]
    simp only [bind, Except.bind, List.foldlM_cons, ha, List.foldlM_nil]; rfl
  have hw := eWin h' hn
  have hdo : ∀ s ∈ e'.sources, DataOk w s.sym := fun s hs => hd _ (List.mem_of_getElem? (hw.data s hs))
  obtain ⟨r', h2, h3⟩ := encodeRepair_ok gf hv dbg rid e'.sources (encodeRepair_ne h1) hdo hw.sorted
  rw [h1] at h2; cases h2
  rw [h3.id]
  exact isRepairOf_of_encOk gf hv h3 hdo

/-- **C18.** What is in the window are committed data, unmodified, under their own numbers. -/
theorem C18_window_data {acts : List EAct} {e : Enc} (hn : (commitsOf acts).length ≤ 2 ^ 32)
    (h : Enc.init.after gf F dbg acts = .ok e) :
    Sorted (e.sources.map (·.id)) ∧ ∀ s ∈ e.sources, (commitsOf acts)[s.id]? = some s.sym :=
  ⟨(eWin h hn).sorted, (eWin h hn).data⟩

/-- **C18.** Repairs are numbered in the order of their emission. -/
theorem C18_repair_numbers {acts : List EAct} {e : Enc}
    (h : Enc.init.after gf F dbg acts = .ok e) (k : Nat) (r : ERepair) (hr : (repairsOf e.out)[k]? = some r) :
    r.id = k % 2 ^ 32 := by
  have key : ∀ {rid : Nat} {S : List ESource} {r : ERepair}, encodeRepair gf dbg rid S = .ok r → r.id = rid := by
    intro rid S r h
    cases S with
    | nil => exact absurd rfl (encodeRepair_ne h)
    | cons s t =>
      simp only [encodeRepair, bind_ok_iff] at h
      obtain ⟨sym, -, h2⟩ := h
      generalize hr0 : (⟨rid, [s.id], mulSize gf (BitVec.ofNat 16 s.size) (coefficient w rid s.id), sym⟩ : ERepair) = r0 at h2
      have h0 : r0.id = rid := by rw [← hr0]
      clear hr0
      induction t generalizing r0 with
      | nil => cases h2; exact h0
      | cons x t ih =>
        rw [List.foldlM_cons] at h2
        obtain ⟨r1, h3, h4⟩ := (bind_ok_iff).1 h2
        refine ih r1 h4 ?_
        simp only [encodeStep, bind_ok_iff, pure_ok_iff] at h3
        obtain ⟨_, _, rfl⟩ := h3
        exact h0
  refine (after_induct (Q := fun acts e => EHist acts e ∧ ∀ k r, (repairsOf e.out)[k]? = some r → r.id = k % 2 ^ 32)
    _ ⟨⟨rfl, rfl, rfl, rfl⟩, (by intro k r h; simp [Enc.init, repairsOf] at h)⟩ ?_ acts e h).2 k r hr
  clear h hr
  rintro acts e a e' - ⟨hi, hq⟩ hs
  refine ⟨eHist_step hi hs, ?_⟩
  have step : ∀ (e1 : Enc) (r : ERepair), EHist acts e1 → (∀ k r, (repairsOf e1.out)[k]? = some r → r.id = k % 2 ^ 32) →
      r.id = e1.curRep → ∀ k r', (repairsOf (e1.sentRepair r).out)[k]? = some r' → r'.id = k % 2 ^ 32 := by
    intro e1 r h1 h2 h3 k r' hk
    simp only [Enc.sentRepair, repairsOf_append, repairsOf] at hk
    rcases getElem?_append_singleton hk with h4 | ⟨rfl, rfl⟩
    · exact h2 k r' h4.2
    · rw [h3, h1.curRep, h1.reps]
  by_cases ha : ∃ d, a = .commit d
  · obtain ⟨d, rfl⟩ := ha
    obtain ⟨e1, e2, rfl, h2, -, h4⟩ := commit_inv hs
    have hi1 : EHist acts { e with sources := e.room ++ [⟨e.curSrc, d⟩] } := hi.congr rfl rfl rfl rfl rfl rfl
    have h5 : EHist acts e2 ∧ ∀ k r, (repairsOf e2.out)[k]? = some r → r.id = k % 2 ^ 32 := by
      rcases h2 with ⟨-, rfl⟩ | ⟨-, r, hr, rfl⟩
      · refine ⟨hi1.sentSource _, fun k r hk => hq k r ?_⟩
        simpa [Enc.sentSource, repairsOf_append, repairsOf] using hk
      · exact ⟨hi1.sentRepair _, step _ r hi1 hq (key hr)⟩
    rcases h4 with ⟨-, rfl⟩ | ⟨-, r, hr, rfl⟩
    · exact h5.2
    · exact step e2 r h5.1 h5.2 (key hr)
  · rcases (act_other (fun d hd => ha ⟨d, hd⟩) hs).2.2 with ⟨-, r, hr, rfl⟩ | ⟨-, -, -, -, h1⟩
    · exact step e r hi hq (key hr)
    · rw [h1]; exact hq

/-- Two data of different sizes, and the repair of both. -/
example : ((Enc.init.after gf8 F0 true [.commit [1, 2, 3], .commit [4], .repair]).map (fun e => repairsOf e.out)).toOption =
    some [⟨0, [0, 1], BitVec.ofNat 16 ((gf8.mul 3 3).toNat ^^^ (gf8.mul 4 1).toNat),
      [gf8.mul 3 1 ^^^ gf8.mul 4 4, gf8.mul 3 2, gf8.mul 3 3]⟩] := by decide +kernel

/-! ## C22 -/

/-- **C22.** The window never exceeds the window size, as long as the window size is never set below the number
of sources in the window. -/
theorem C22_window_bound_partial {acts : List EAct} {e : Enc} (h : Enc.init.after gf F dbg acts = .ok e)
    (hs : ∀ pre n suf e', acts = pre ++ .setWindow n :: suf → Enc.init.after gf F dbg pre = .ok e' → e'.window ≤ n) :
    e.window ≤ e.windowSize := by
  refine after_induct (gf := gf) (F := F) (dbg := dbg) (Q := fun acts e =>
    (∀ pre n suf e', acts = pre ++ .setWindow n :: suf → Enc.init.after gf F dbg pre = .ok e' → e'.window ≤ n) →
    e.window ≤ e.windowSize) _ ?_ ?_ acts e h hs
  · intro _; exact Nat.zero_le _
  clear h hs
  intro acts e a e' hpre hq hs hw
  have hle := hq (fun pre n suf e1 h1 h2 => hw pre n (suf ++ [a]) e1 (by rw [h1]; simp) h2)
  by_cases ha : ∃ d, a = .commit d
  · obtain ⟨d, rfl⟩ := ha
    have hsrc := (commit_sources hs).1
    have hws : e'.windowSize = e.windowSize := by
      obtain ⟨e1, e2, rfl, h2, -, h4⟩ := commit_inv hs
      rcases h2 with ⟨-, rfl⟩ | ⟨-, r1, -, rfl⟩ <;> rcases h4 with ⟨-, rfl⟩ | ⟨-, r2, -, rfl⟩ <;> rfl
    have hne : ¬ (e.sources.length = e.windowSize ∧ e.sources = []) := by
      rintro ⟨h1, h2⟩
      simp only [Enc.act, Enc.commit, bind_ok_iff] at hs
      obtain ⟨_, _, _, _, _, _, _, h3, _⟩ := hs
      rw [h2] at h1
      simp [ensure, h2, ← h1] at h3
    unfold Enc.window at hle ⊢
    rw [hsrc, hws, List.length_append, List.length_singleton]
    unfold Enc.room
    split
    · next h1 =>
      have : e.sources ≠ [] := fun h2 => hne ⟨h1, h2⟩
      rw [List.length_tail]
      have := List.length_pos_of_ne_nil this
      omega
    · omega
  · have ha' : ∀ d, a ≠ .commit d := fun d hd => ha ⟨d, hd⟩
    have hlen : e'.window ≤ e.window := by
      unfold Enc.window
      rcases act_sources ha' hs with h1 | ⟨p, k, n, -, -, hk, h1⟩
      · rw [h1]
      · rw [h1]; exact (eraseIds_sublist _ _).length_le
    cases a with
    | commit d => exact absurd rfl (ha' d)
    | setWindow n =>
      have h1 := hw acts n [] e rfl hpre
      simp only [Enc.act, Enc.setWindowSize, bind_ok_iff, pure_ok_iff] at hs
      obtain ⟨_, _, rfl⟩ := hs
      exact h1
    | repair => obtain ⟨r, -, rfl⟩ := generateRepair_inv hs; exact hle
    | setRate n =>
      simp only [Enc.act, Enc.setRate, bind_ok_iff, pure_ok_iff] at hs
      obtain ⟨_, _, rfl⟩ := hs; exact hle
    | setAdaptive b => cases hs; exact hle
    | setSystematic b => cases hs; exact hle
    | packet p =>
      rcases packet_inv hs with rfl | ⟨-, rfl⟩ | ⟨a, n, -, -, rfl⟩ <;> exact le_trans hlen hle

/-- A window of two sources: the third datum evicts the first. -/
example : ((Enc.init.after gf8 F0 true [.setWindow 2, .commit [1], .commit [2], .commit [3]]).map
    (fun e => (e.sources.map (·.id), e.windowSize))).toOption = some ([1, 2], 2) := by decide +kernel

/-- **C22 fails** when the window size is set below the number of sources in the window: no later commit evicts
anything, so that the window goes on growing. -/
theorem C22_false (dbg : Bool) (N : Nat) (hN : N + 2 < 2 ^ 32) :
    ∃ acts e, Enc.init.after gf8 F0 dbg acts = .ok e ∧ e.windowSize = 1 ∧ e.window = N + 2 := by
  have step : ∀ e : Enc, e.systematic = true → e.rate = 2 ^ 32 → e.windowSize = 1 → 2 ≤ e.window → e.curSrc + 1 < 2 ^ 32 →
      ∃ e', e.commit gf8 dbg [0] = .ok e' ∧ e'.systematic = true ∧ e'.rate = 2 ^ 32 ∧ e'.windowSize = 1 ∧
        e'.window = e.window + 1 ∧ e'.curSrc = e.curSrc + 1 := by
    intro e h1 h2 h3 h4 h5
    unfold Enc.window at h4
    refine ⟨{ (({ e with sources := e.sources ++ [⟨e.curSrc, [0]⟩] } : Enc).sentSource ⟨e.curSrc, [0]⟩) with
      curSrc := e.curSrc + 1 }, ?_, h1, h2, h3, ?_, rfl⟩
    · unfold Enc.commit
      have ha : ∀ b : Bool, b = true → cassert dbg b = .ok () := fun b hb => cassert_true dbg hb
      rw [ha _ (by simp), ha _ (by simp), ha _ (by simp), ensure_true _ (by simp [h3]; omega)]
      simp only [bind, Except.bind]
      rw [if_neg (by omega)]
      unfold Enc.emitNew
      simp only [h1, if_true]
      unfold Enc.autoRepair
      simp only [h2]
      rw [ensure_true _ (by decide)]
      simp only [bind, Except.bind]
      rw [if_neg (by omega)]
      simp only
      rw [Nat.mod_eq_of_lt h5]
      rfl
    · simp [Enc.window, Enc.sentSource]
  have grow : ∀ N, N + 2 < 2 ^ 32 → ∃ e, Enc.init.after gf8 F0 dbg ([.setRate (2 ^ 32), .commit [0], .commit [0], .setWindow 1] ++
      List.replicate N (.commit [0])) = .ok e ∧ e.systematic = true ∧ e.rate = 2 ^ 32 ∧ e.windowSize = 1 ∧ e.window = N + 2 ∧
      e.curSrc = N + 2 := by
    intro N
    induction N with
    | zero =>
      intro _
      have h : ∀ dbg : Bool, ∃ e, (Enc.init.after gf8 F0 dbg [.setRate (2 ^ 32), .commit [0], .commit [0], .setWindow 1]).toOption = some e ∧
          e.systematic = true ∧ e.rate = 2 ^ 32 ∧ e.windowSize = 1 ∧ e.window = 2 ∧ e.curSrc = 2 := by
        intro dbg
        have hs : ((Enc.init.after gf8 F0 dbg [.setRate (2 ^ 32), .commit [0], .commit [0], .setWindow 1]).map
          (fun e => (e.systematic, e.rate, e.windowSize, e.window, e.curSrc))).toOption = some (true, 2 ^ 32, 1, 2, 2) := by
          revert dbg; decide +kernel
        revert hs
        generalize Enc.init.after gf8 F0 dbg [.setRate (2 ^ 32), .commit [0], .commit [0], .setWindow 1] = o
        intro hs
        cases o with
        | error f => cases hs
        | ok e =>
          simp only [Except.map, Except.toOption, Option.some.injEq, Prod.mk.injEq] at hs
          exact ⟨e, rfl, hs⟩
      obtain ⟨e, h1, h2⟩ := h dbg
      refine ⟨e, ?_, h2⟩
      simp only [List.replicate_zero, List.append_nil]
      revert h1
      generalize Enc.init.after gf8 F0 dbg [.setRate (2 ^ 32), .commit [0], .commit [0], .setWindow 1] = o
      intro h1
      cases o with
      | error f => cases h1
      | ok e' => cases h1; rfl
    | succ N ih =>
      intro hN
      obtain ⟨e, h1, h2, h3, h4, h5, h6⟩ := ih (by omega)
      obtain ⟨e', g1, g2, g3, g4, g5, g6⟩ := step e h2 h3 h4 (by omega) (by omega)
      refine ⟨e', ?_, g2, g3, g4, by omega, by omega⟩
      rw [List.replicate_succ', ← List.append_assoc]
      unfold Enc.after at h1 ⊢
      rw [List.foldlM_append, h1]
      simp only [bind, Except.bind, List.foldlM_cons, Enc.act, g1, List.foldlM_nil]; rfl
  obtain ⟨e, h1, -, -, h2, h3, -⟩ := grow N hN
  exact ⟨_, e, h1, h2, h3⟩

/-! ## C23 -/

/-- **C23.** After an ack the window is made of the sources it does not name, in the same order, and the whole ack
is consumed. -/
theorem C23_ack_removes {acts : List EAct} {e : Enc} (hn : (commitsOf acts).length ≤ 2 ^ 32)
    (h : Enc.init.after gf F dbg acts = .ok e) {p : List Byte} {k : Ack} {n : Nat}
    (hp : getPacketType p = .ok .ack) (hk : readAck p = .ok (k, n)) :
    ∃ e', e.notify F dbg p = .ok (e', .ok n) ∧ e'.sources = e.sources.filter (fun s => decide (s.id ∉ k.ids)) ∧
      e'.out = e.out ∧ e'.curSrc = e.curSrc := by
  refine ⟨e.gotAck.applyAck F k, ?_, ?_, rfl, rfl⟩
  · rw [Enc.notify_of_ack F dbg e hp, hk]
  · exact eraseIds_eq _ _ (eWin h hn).sorted (readAck_sorted hk)

/-- **C23**, for an ack as a decoder writes it. -/
theorem C23_genuine_ack {acts : List EAct} {e : Enc} (hn : (commitsOf acts).length ≤ 2 ^ 32)
    (h : Enc.init.after gf F dbg acts = .ok e) (k : Ack) (h1 : k.nbPackets < 2 ^ 16) (h2 : WireIds k.ids) :
    ∃ e', e.notify F dbg (writeAck k).flatten = .ok (e', .ok (writeAck k).flatten.length) ∧
      e'.sources = e.sources.filter (fun s => decide (s.id ∉ k.ids)) := by
  obtain ⟨e', h3, h4, -⟩ := C23_ack_removes hn h (getPacketType_ack k) (readAck_writeAck k h1 h2)
  exact ⟨e', h3, h4⟩

/-- **C23.** Two acks in either order, or one of them repeated, leave the same window. -/
theorem C23_order_irrelevant {acts : List EAct} {e e₁ e₂ e₁₂ e₂₁ e₁₁ : Enc} (hn : (commitsOf acts).length ≤ 2 ^ 32)
    (h : Enc.init.after gf F dbg acts = .ok e) {p q : List Byte} {a b : Ack} {m n : Nat}
    (hp : getPacketType p = .ok .ack) (ha : readAck p = .ok (a, m))
    (hq : getPacketType q = .ok .ack) (hb : readAck q = .ok (b, n))
    (h1 : e.act gf F dbg (.packet p) = .ok e₁) (h2 : e.act gf F dbg (.packet q) = .ok e₂)
    (h12 : e₁.act gf F dbg (.packet q) = .ok e₁₂) (h21 : e₂.act gf F dbg (.packet p) = .ok e₂₁)
    (h11 : e₁.act gf F dbg (.packet p) = .ok e₁₁) :
    e₁₂.sources = e₂₁.sources ∧ e₁₁.sources = e₁.sources := by
  have hs := (eWin h hn).sorted
  have sa := readAck_sorted ha
  have sb := readAck_sorted hb
  have key : ∀ {e e' : Enc} {p : List Byte} {a : Ack} {m : Nat}, getPacketType p = .ok .ack → readAck p = .ok (a, m) →
      e.act gf F dbg (.packet p) = .ok e' → e'.sources = eraseIds e.sources a.ids := by
    intro e e' p a m hp ha h
    simp only [Enc.act] at h
    rw [Enc.notify_of_ack F dbg e hp, ha] at h
    cases h; rfl
  have srt : ∀ {S : List ESource} {ids : List Nat}, Sorted (S.map (·.id)) → Sorted ((eraseIds S ids).map (·.id)) :=
    fun hS => hS.sublist ((eraseIds_sublist _ _).map _)
  rw [key hq hb h12, key hp ha h21, key hp ha h11, key hp ha h1, key hq hb h2,
    eraseIds_eq _ _ (srt hs) sb, eraseIds_eq _ _ (srt hs) sa, eraseIds_eq _ _ (srt hs) sa,
    eraseIds_eq _ _ hs sa, eraseIds_eq _ _ hs sb]
  constructor
  · rw [List.filter_filter, List.filter_filter]
    congr 1; funext s; exact Bool.and_comm _ _
  · rw [List.filter_filter]; congr 1; funext s; exact Bool.and_self _

example : ((Enc.init.after gf8 F0 true [.commit [1], .commit [2], .commit [3], .packet (writeAck ⟨[0, 2, 7], 3⟩).flatten]).map
    (fun e => e.sources)).toOption = some [⟨1, [2]⟩] := by decide +kernel

/-! ## C25 -/

/-- **C25.** A source leaves the window only when an ack names it, or, being the oldest, when a datum is committed
while the window is full.  For all states of an encoder. -/
theorem C25_leaves_only {e e' : Enc} {a : EAct} (h : e.act gf F dbg a = .ok e') {s : ESource} (hs : s ∈ e.sources)
    (hgone : s ∉ e'.sources) :
    (∃ p k n, a = .packet p ∧ getPacketType p = .ok .ack ∧ readAck p = .ok (k, n) ∧ s.id ∈ k.ids) ∨
    (∃ d, a = .commit d ∧ e.window = e.windowSize ∧ e.sources.head? = some s) := by
  by_cases ha : ∃ d, a = .commit d
  · obtain ⟨d, rfl⟩ := ha
    right
    refine ⟨d, rfl, ?_⟩
    rw [(commit_sources h).1] at hgone
    unfold Enc.room at hgone
    split at hgone
    · next hc =>
      refine ⟨hc, ?_⟩
      cases hsrc : e.sources with
      | nil => rw [hsrc] at hs; cases hs
      | cons x t =>
        rw [hsrc] at hs hgone
        rcases List.mem_cons.1 hs with rfl | hs
        · rfl
        · exact absurd (List.mem_append_left _ hs) hgone
    · exact absurd (List.mem_append_left _ hs) hgone
  · left
    rcases act_sources (fun d hd => ha ⟨d, hd⟩) h with h1 | ⟨p, k, n, rfl, hp, hk, h1⟩
    · rw [h1] at hgone; exact absurd hs hgone
    · refine ⟨p, k, n, rfl, hp, hk, ?_⟩
      by_contra hc
      rw [h1] at hgone
      exact hgone (mem_eraseIds hs hc)

/-- **C25.** The new datum is the last of the window right after its commit; the order of the others does not
change, and no call but a commit adds a source.  For all states of an encoder. -/
theorem C25_newest {e e' : Enc} {a : EAct} (h : e.act gf F dbg a = .ok e') :
    (∀ d, a = .commit d → ∃ old, e'.sources = old ++ [⟨e.curSrc, d⟩] ∧ List.Sublist old e.sources) ∧
    ((∀ d, a ≠ .commit d) → List.Sublist e'.sources e.sources) := by
  constructor
  · rintro d rfl
    exact ⟨e.room, (commit_sources h).1, room_sublist e⟩
  · intro ha
    rcases act_sources ha h with h1 | ⟨p, k, n, -, -, -, h1⟩
    · rw [h1]
    · rw [h1]; exact eraseIds_sublist _ _

/-- Source 1 is evicted by the window limit only after source 0 was acknowledged: the oldest goes first. -/
example : ((Enc.init.after gf8 F0 false [.setWindow 2, .commit [1], .commit [2], .packet (writeAck ⟨[0], 1⟩).flatten,
    .commit [3], .commit [4]]).map (fun e => e.sources.map (·.id))).toOption = some [2, 3] := by decide +kernel

/-! ## C26 -/

/-- **C26.** In systematic mode a commit emits at once a source packet with the number of data committed before and
the unmodified data. -/
theorem C26_systematic_source {acts : List EAct} {e e' : Enc} {d : List Byte}
    (h : Enc.init.after gf F dbg acts = .ok e) (hs : e.systematic = true) (hc : e.act gf F dbg (.commit d) = .ok e') :
    e'.out[e.out.length]? = some (.source ⟨(commitsOf acts).length % 2 ^ 32, d⟩) ∧ e'.out.take e.out.length = e.out := by
  have hcur := (eHist h).curSrc
  obtain ⟨e1, e2, rfl, h2, -, h4⟩ := commit_inv hc
  rcases h2 with ⟨-, rfl⟩ | ⟨hs', r1, -, rfl⟩
  · rcases h4 with ⟨-, rfl⟩ | ⟨-, r2, -, rfl⟩ <;> simp [Enc.sentSource, Enc.sentRepair, hcur]
  · rw [hs] at hs'; cases hs'

/-- **C26.** The k-th committed datum has number k: in the window and in all source packets. -/
theorem C26_numbers {acts : List EAct} {e : Enc} (hn : (commitsOf acts).length ≤ 2 ^ 32)
    (h : Enc.init.after gf F dbg acts = .ok e) :
    (∀ s ∈ e.sources, (commitsOf acts)[s.id]? = some s.sym) ∧
    (∀ s, EPkt.source s ∈ e.out → (commitsOf acts)[s.id]? = some s.sym) := by
  have hw := eWin h hn
  refine ⟨hw.data, fun s hs => hw.sent s ?_⟩
  have key : ∀ l : List EPkt, EPkt.source s ∈ l → s ∈ sourcesOf l := by
    intro l
    induction l with
    | nil => intro h; cases h
    | cons x t ih =>
      intro h
      cases x with
      | source y =>
        rcases List.mem_cons.1 h with h | h
        · cases h; simp [sourcesOf]
        · simp [sourcesOf, ih h]
      | repair y =>
        rcases List.mem_cons.1 h with h | h
        · cases h
        · simp [sourcesOf, ih h]
  exact key _ hs

/-- **C26.** A history without change of code emits each committed datum exactly once as a source, in order. -/
theorem C26_all_sources {acts : List EAct} {e : Enc} (h : Enc.init.after gf F dbg acts = .ok e)
    (hsys : ∀ b, .setSystematic b ∈ acts → b = true) :
    (sourcesOf e.out).map (·.sym) = commitsOf acts := by
  refine (after_induct (gf := gf) (F := F) (dbg := dbg) (Q := fun acts e => (∀ b, .setSystematic b ∈ acts → b = true) →
    e.systematic = true ∧ (sourcesOf e.out).map (·.sym) = commitsOf acts) _ ?_ ?_ acts e h hsys).2
  · intro _; exact ⟨rfl, rfl⟩
  clear h hsys
  intro acts e a e' _ hq hs hb
  obtain ⟨h1, h2⟩ := hq (fun b hb' => hb b (List.mem_append_left _ hb'))
  by_cases ha : ∃ d, a = .commit d
  · obtain ⟨d, rfl⟩ := ha
    constructor
    · obtain ⟨e1, e2, rfl, h3, -, h4⟩ := commit_inv hs
      rcases h3 with ⟨-, rfl⟩ | ⟨-, r1, -, rfl⟩ <;> rcases h4 with ⟨-, rfl⟩ | ⟨-, r2, -, rfl⟩ <;> exact h1
    · rw [(commit_sources hs).2, h1, List.map_append, h2, commitsOf_append]; rfl
  · have ha' : ∀ d, a ≠ .commit d := fun d hd => ha ⟨d, hd⟩
    obtain ⟨-, h3, h4⟩ := act_other ha' hs
    constructor
    · cases a with
      | commit d => exact absurd rfl (ha' d)
      | repair => obtain ⟨r, -, rfl⟩ := generateRepair_inv hs; exact h1
      | setRate n =>
        simp only [Enc.act, Enc.setRate, bind_ok_iff, pure_ok_iff] at hs
        obtain ⟨_, _, rfl⟩ := hs; exact h1
      | setWindow n =>
        simp only [Enc.act, Enc.setWindowSize, bind_ok_iff, pure_ok_iff] at hs
        obtain ⟨_, _, rfl⟩ := hs; exact h1
      | setAdaptive b => cases hs; exact h1
      | setSystematic b => cases hs; exact hb b (by simp)
      | packet p => rcases packet_inv hs with rfl | ⟨-, rfl⟩ | ⟨a, n, -, -, rfl⟩ <;> exact h1
    · rw [commitsOf_append, h3, List.append_nil, ← h2]
      rcases h4 with ⟨-, r, -, rfl⟩ | ⟨-, -, -, -, h5⟩
      · simp [Enc.sentRepair, sourcesOf_append, sourcesOf]
      · rw [h5]

example : ((Enc.init.after gf8 F0 true [.commit [7], .setSystematic false, .commit [8], .setSystematic true, .commit [9]]).map
    (fun e => sourcesOf e.out)).toOption = some [⟨0, [7]⟩, ⟨2, [9]⟩] := by decide +kernel

/-! ## C27 -/

/-- **C27.** With a constant rate `r`, n commits emit n / r repairs, besides those asked for and one for each datum
committed while the code is not systematic. -/
theorem C27_cadence {r : Nat} {acts : List EAct} {e : Enc}
    (h : Enc.init.after gf F dbg (.setRate r :: acts) = .ok e) (hr : ∀ a ∈ acts, KeepsRate a)
    (hn : (commitsOf acts).length < 2 ^ 32) :
    (repairsOf e.out).length = (commitsOf acts).length / r + forcedOf acts + nonSystematicOf true acts := by
  have h0 : ({ Enc.init with rate := r } : Enc).after gf F dbg acts = .ok e := by
    unfold Enc.after at h ⊢
    rw [List.foldlM_cons] at h
    obtain ⟨e1, h1, h2⟩ := (bind_ok_iff).1 h
    simp only [Enc.act, Enc.setRate, bind_ok_iff, pure_ok_iff] at h1
    obtain ⟨_, _, rfl⟩ := h1; exact h2
  refine (after_induct (gf := gf) (F := F) (dbg := dbg) (Q := fun acts e => (∀ a ∈ acts, KeepsRate a) →
    (commitsOf acts).length < 2 ^ 32 → EHist acts e ∧ e.rate = r ∧ e.adaptive = false ∧ e.systematic = codeAfter true acts ∧
    (repairsOf e.out).length = (commitsOf acts).length / r + forcedOf acts + nonSystematicOf true acts) _ ?_ ?_ acts e h0 hr hn).2.2.2.2
  · intro _ _
    refine ⟨⟨rfl, rfl, rfl, rfl⟩, rfl, rfl, rfl, ?_⟩
    simp [Enc.init, repairsOf, commitsOf, forcedOf, nonSystematicOf]
  clear h h0 hr hn
  intro acts e a e' _ hq hs hk hn
  rw [commitsOf_append, List.length_append] at hn
  obtain ⟨hi, h1, h2, h3, h4⟩ := hq (fun x hx => hk x (List.mem_append_left _ hx)) (by omega)
  have hka := hk a (by simp)
  refine ⟨eHist_step hi hs, ?_⟩
  rw [commitsOf_append, nonSystematicOf_append, codeAfter_append]
  by_cases ha : ∃ d, a = .commit d
  · obtain ⟨d, rfl⟩ := ha
    have hcur : e.curSrc = (commitsOf acts).length := by
      rw [hi.curSrc]; exact Nat.mod_eq_of_lt (by omega)
    have hn' : (commitsOf acts).length + 1 < 2 ^ 32 := by simpa [commitsOf] using hn
    obtain ⟨e1, e2, rfl, h5, h6, h7⟩ := commit_inv hs
    rw [hcur, h1, Nat.mod_eq_of_lt hn'] at h7
    rw [h1] at h6
    have hf : forcedOf (acts ++ [.commit d]) = forcedOf acts := by simp [forcedOf, List.count_append]
    rw [hf]
    have hdiv : ((commitsOf acts).length + 1) / r = (commitsOf acts).length / r +
        (if ((commitsOf acts).length + 1) % r = 0 then 1 else 0) := by
      rw [Nat.succ_div]
      by_cases hd : r ∣ (commitsOf acts).length + 1
      · rw [if_pos hd, if_pos (Nat.mod_eq_zero_of_dvd hd)]
      · rw [if_neg hd, if_neg (fun h => hd (Nat.dvd_of_mod_eq_zero h))]
    have h8 : e2.rate = r ∧ e2.adaptive = false ∧ e2.systematic = codeAfter true acts ∧
        (repairsOf e2.out).length = (repairsOf e.out).length + (if codeAfter true acts then 0 else 1) := by
      rcases h5 with ⟨h9, rfl⟩ | ⟨h9, r1, -, rfl⟩
      · refine ⟨h1, h2, h3, ?_⟩
        rw [← h3, h9]; simp [Enc.sentSource, repairsOf_append, repairsOf]
      · refine ⟨h1, h2, h3, ?_⟩
        rw [← h3, h9]; simp [Enc.sentRepair, repairsOf_append, repairsOf]
    obtain ⟨g1, g2, g3, g4⟩ := h8
    simp only [commitsOf, List.length_append, List.length_singleton, nonSystematicOf, codeAfter, hdiv]
    rcases h7 with ⟨h10, rfl⟩ | ⟨h10, r2, -, rfl⟩
    · refine ⟨g1, g2, g3, ?_⟩
      simp only [g4, h4, h10, if_false]; omega
    · refine ⟨g1, g2, g3, ?_⟩
      simp only [Enc.sentRepair, repairsOf_append, repairsOf, List.length_append, List.length_singleton, g4, h4, h10, if_true]
      omega
  · have ha' : ∀ d, a ≠ .commit d := fun d hd => ha ⟨d, hd⟩
    obtain ⟨-, h5, h6⟩ := act_other ha' hs
    rw [h5, List.append_nil]
    have hf : forcedOf (acts ++ [a]) = forcedOf acts + (if a = .repair then 1 else 0) := by
      unfold forcedOf; rw [List.count_append, List.count_singleton]; simp
    rw [hf]
    have hrep : (repairsOf e'.out).length = (repairsOf e.out).length + (if a = .repair then 1 else 0) := by
      rcases h6 with ⟨rfl, r1, -, rfl⟩ | ⟨hne, -, -, -, h7⟩
      · simp [Enc.sentRepair, repairsOf_append, repairsOf]
      · rw [h7, if_neg hne]; rfl
    rw [hrep, h4]
    cases a with
    | commit d => exact absurd rfl (ha' d)
    | repair =>
      obtain ⟨r, -, rfl⟩ := generateRepair_inv hs
      exact ⟨h1, h2, h3, by simp [nonSystematicOf]; omega⟩
    | setRate n => exact absurd hka (by simp [KeepsRate])
    | setWindow n =>
      simp only [Enc.act, Enc.setWindowSize, bind_ok_iff, pure_ok_iff] at hs
      obtain ⟨_, _, rfl⟩ := hs
      exact ⟨h1, h2, h3, by simp [nonSystematicOf]⟩
    | setAdaptive b =>
      cases hs
      exact ⟨h1, hka, h3, by simp [nonSystematicOf]⟩
    | setSystematic b =>
      cases hs
      exact ⟨h1, h2, rfl, by simp [nonSystematicOf]⟩
    | packet p =>
      rcases packet_inv hs with rfl | ⟨-, rfl⟩ | ⟨a, n, -, -, rfl⟩
      · exact ⟨h1, h2, h3, by simp [nonSystematicOf]⟩
      · exact ⟨h1, h2, h3, by simp [nonSystematicOf]⟩
      · refine ⟨?_, h2, h3, by simp [nonSystematicOf]⟩
        simp [Enc.applyAck, Enc.gotAck, h2, h1]

/-- **C27.** The statistics count the packets emitted. -/
theorem C27_statistics {acts : List EAct} {e : Enc} (h : Enc.init.after gf F dbg acts = .ok e) :
    e.nbSentRepairs = (repairsOf e.out).length ∧ e.nbSentSources = (sourcesOf e.out).length :=
  ⟨(eHist h).reps, (eHist h).srcs⟩

/-- Seven commits with a repair every three, one of them not systematic, and a forced repair. -/
example : ((Enc.init.after gf8 F0 true ([.setRate 3] ++ List.replicate 3 (.commit [1]) ++ [.repair, .setSystematic false, .commit [2],
    .setSystematic true] ++ List.replicate 3 (.commit [1]))).map (fun e => (repairsOf e.out).length)).toOption =
    some (7 / 3 + 1 + 1) := by decide +kernel

/-! ## C28 -/

/-- **C28.** In adaptive mode an ack sets the rate to a value between 1 and 50, for all states of an encoder. -/
theorem C28_rate_range (hF : F.Ok) {e e' : Enc} {p : List Byte} {n : Nat} (ha : e.adaptive = true)
    (h : e.notify F dbg p = .ok (e', .ok n)) : 1 ≤ e'.rate ∧ e'.rate ≤ 50 := by
  have hp : p ≠ [] := by
    rintro rfl
    cases dbg <;> simp [Enc.notify, cassert, getPacketType, bind, Except.bind] at h
  by_cases ht : getPacketType p = .ok .ack
  · rw [Enc.notify_of_ack F dbg e ht] at h
    rcases readAck_total p with ⟨a, m, h1, -⟩ | h1
    · rw [h1] at h
      cases h
      have e1 : (e.gotAck.applyAck F a).rate = if e.nbSentPackets > 0 then
          rateForLoss F (lossRate F e.nbSentPackets a.nbPackets) else rateForLoss F 0 := by
        simp [Enc.applyAck, Enc.gotAck, ha]
      rw [e1]
      split
      · next hs => exact ⟨rateForLoss_pos hF _ (lossRate_le_one hF _ _ hs), rateForLoss_le hF _⟩
      · exact ⟨rateForLoss_pos hF _ (by norm_num), rateForLoss_le hF _⟩
    · rw [h1] at h; cases h
  · rw [Enc.notify_of_other F dbg e hp ht] at h; cases h

/-- **C28.** The more packets an ack reports, the fewer repairs are sent: the rate does not decrease. -/
theorem C28_antitone (hF : F.Ok) (sent nb nb' : Nat) (hs : 0 < sent) (h : nb ≤ nb') :
    rateForLoss F (lossRate F sent nb) ≤ rateForLoss F (lossRate F sent nb') := by
  apply rateForLoss_anti hF
  unfold lossRate
  apply hF.mono
  have h1 : (0 : Rat) < (sent : Rat) := by exact_mod_cast hs
  have h2 : (nb : Rat) ≤ (nb' : Rat) := by exact_mod_cast h
  exact div_le_div_of_nonneg_right (by linarith) h1.le

/-- **C28.** Outside of adaptive mode acks leave the rate alone. -/
theorem C28_not_adaptive {e e' : Enc} {p : List Byte} (ha : e.adaptive = false)
    (h : e.act gf F dbg (.packet p) = .ok e') : e'.rate = e.rate := by
  rcases packet_inv h with rfl | ⟨-, rfl⟩ | ⟨a, n, -, -, rfl⟩
  · rfl
  · rfl
  · simp [Enc.applyAck, Enc.gotAck, ha]

/-- Ten packets sent: eight of them received, none of them, and more than sent. -/
example : rateForLoss F0 (lossRate F0 10 8) = 3 ∧ rateForLoss F0 (lossRate F0 10 0) = 1 ∧
    rateForLoss F0 (lossRate F0 10 12) = 50 ∧ rateForLoss F0 (lossRate F0 200 199) = 50 := by decide +kernel

/-! ## C41 -/

/-- **C41.** A repair can be asked for whenever the window is not empty. -/
theorem C41_repair_partial (hv : ValidW w) {acts : List EAct} {e : Enc} (hn : (commitsOf acts).length ≤ 2 ^ 32)
    (hd : ∀ d ∈ commitsOf acts, DataOk w d) (h : Enc.init.after gf F dbg acts = .ok e) (hw : e.window ≠ 0) :
    ∃ e' r, e.generateRepair gf dbg = .ok e' ∧ e'.out = e.out ++ [.repair r] ∧ IsRepairOf gf r.id e.sources r := by
  have := fact_of_valid hv
  have h1 := eWin h hn
  have hdo : ∀ s ∈ e.sources, DataOk w s.sym := fun s hs => hd _ (List.mem_of_getElem? (h1.data s hs))
  obtain ⟨r, h2, h3⟩ := encodeRepair_ok gf hv dbg e.curRep e.sources (by
    rintro h0; rw [Enc.window, h0] at hw; exact hw rfl) hdo h1.sorted
  refine ⟨e.sentRepair r, r, ?_, rfl, ?_⟩
  · unfold Enc.generateRepair
    rw [h2]
    simp only [bind, Except.bind]
    rw [cassert_true _ (by simpa using (h3.symLen hdo).1)]
    rfl
  · rw [h3.id]; exact isRepairOf_of_encOk gf hv h3 hdo

/-- Three commits and an ack of the first two sources. -/
example : ∃ acts e, Enc.init.after gf8 F0 true acts = .ok e ∧ (commitsOf acts).length ≤ 2 ^ 32 ∧ (∀ d ∈ commitsOf acts, DataOk 8 d) ∧
    e.window = 1 := by
  have h : ((Enc.init.after gf8 F0 true [.commit [1], .commit [2, 3], .commit [4], .packet (writeAck ⟨[0, 1], 2⟩).flatten]).map
      Enc.window).toOption = some 1 := by decide +kernel
  revert h
  generalize ho : Enc.init.after gf8 F0 true [.commit [1], .commit [2, 3], .commit [4], .packet (writeAck ⟨[0, 1], 2⟩).flatten] = o
  intro h
  cases o with
  | error f => cases h
  | ok e => exact ⟨_, e, ho, by decide, by decide, by simpa [Except.map, Except.toOption] using h⟩

/-- **C41 fails** when the window is empty, in all states: an assertion, or undefined behaviour when assertions are
not compiled in. -/
theorem C41_false_empty (e : Enc) (hw : e.window = 0) :
    e.generateRepair gf true = .error .assertion ∧ e.generateRepair gf false = .error (.ub .derefEnd) := by
  have h : e.sources = [] := List.eq_nil_of_length_eq_zero hw
  unfold Enc.generateRepair
  rw [h]; exact ⟨rfl, rfl⟩

/-- **C41 fails**: an ack of everything sent empties the window. -/
theorem C41_false (dbg : Bool) : ∃ acts e, Enc.init.after gf8 F0 dbg acts = .ok e ∧
    commitsOf acts = [[1], [2]] ∧ ∀ e', e.generateRepair gf8 dbg ≠ .ok e' := by
  have h : ∀ dbg : Bool, ((Enc.init.after gf8 F0 dbg [.commit [1], .commit [2], .packet (writeAck ⟨[0, 1], 2⟩).flatten]).map
      Enc.window).toOption = some 0 := by decide +kernel
  have h1 := h dbg
  clear h
  revert h1
  generalize ho : Enc.init.after gf8 F0 dbg [.commit [1], .commit [2], .packet (writeAck ⟨[0, 1], 2⟩).flatten] = o
  intro h1
  cases o with
  | error f => cases h1
  | ok e =>
    simp only [Except.map, Except.toOption, Option.some.injEq] at h1
    refine ⟨_, e, ho, rfl, fun e' he => ?_⟩
    have := C41_false_empty (gf := gf8) e h1
    cases dbg
    · rw [this.2] at he; cases he
    · rw [this.1] at he; cases he

/-! ## C42 -/

/-- **C42 fails**: of a datum of 65536 bytes or more only the first (length mod 65536) bytes are read back.  The
packet itself has all the bytes. -/
theorem C42_truncated (s : ESource) (hi : s.id < 2 ^ 32) :
    readSource (writeSource s).flatten = .ok (⟨s.id, s.sym.take (s.sym.length % 2 ^ 16)⟩, 7 + s.sym.length % 2 ^ 16) ∧
    (writeSource s).flatten.length = 7 + s.sym.length :=
  ⟨readSource_writeSource_any s hi, by simp [writeSource, beBytes_length]; omega⟩

theorem C42_false : ∃ d : List Byte, d ≠ [] ∧ ∀ i < 2 ^ 32,
    ∃ n, readSource (writeSource ⟨i, d⟩).flatten = .ok (⟨i, [0]⟩, n) ∧ d.length = 65537 := by
  have hl : (List.replicate 65537 (0 : Byte)).length = 65537 := List.length_replicate
  refine ⟨List.replicate 65537 0, fun h => ?_, fun i hi => ⟨8, ?_, hl⟩⟩
  · rw [h] at hl; cases hl
  · rw [(C42_truncated ⟨i, _⟩ hi).1]
    simp only [hl, List.take_replicate]
    rfl

/-- **C42** holds for data of at most 65535 bytes: the packet emitted is read back as the datum. -/
theorem C42_data_partial {acts : List EAct} {e e' : Enc} {d : List Byte} (hd : d.length < 2 ^ 16)
    (h : Enc.init.after gf F dbg acts = .ok e) (hs : e.systematic = true) (hc : e.act gf F dbg (.commit d) = .ok e') :
    ∃ p n, e'.out[e.out.length]? = some p ∧
      readSource p.bytes = .ok (⟨(commitsOf acts).length % 2 ^ 32, d⟩, n) ∧ n = p.bytes.length := by
  refine ⟨_, _, (C26_systematic_source h hs hc).1, ?_, rfl⟩
  exact readSource_writeSource ⟨_, d⟩ (Nat.mod_lt _ (by decide)) hd

/-- The second datum, of four bytes. -/
example : ∃ e e', Enc.init.after gf8 F0 true [.commit [1, 2]] = .ok e ∧ e.systematic = true ∧
    e.act gf8 F0 true (.commit [3, 4, 5, 6]) = .ok e' ∧ (e'.out[e.out.length]?.map EPkt.bytes) = some [2, 0, 0, 0, 1, 0, 4, 3, 4, 5, 6] :=
  ⟨_, _, rfl, rfl, rfl, by decide +kernel⟩

end Netcode
