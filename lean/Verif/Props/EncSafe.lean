import Verif.Spec.EncSafe
import Verif.Props.Encoder
import Verif.Props.Wire
import Verif.Proofs.Settings
import Verif.Proofs.SysStep

/-!
# C94: no packet makes an encoder fail
-/

namespace Netcode

variable {w : Nat} {gf : GF w} {F : F64} {dbg : Bool}

/-- The rate and the size of the window are never 0. -/
theorem sane_settings (hF : F.Ok) {acts : List EAct} {e : Enc} (hl : ∀ a ∈ acts, a.Sane w) (h : Enc.init.after gf F dbg acts = .ok e) :
    0 < e.rate ∧ 0 < e.windowSize := by
  refine after_induct (gf := gf) (F := F) (dbg := dbg) (Q := fun acts e => (∀ a ∈ acts, a.Sane w) → 0 < e.rate ∧ 0 < e.windowSize)
    _ ?_ ?_ acts e h hl
  · intro _; exact ⟨by decide, by decide⟩
  rintro acts e a e' - ih ha hl
  obtain ⟨h1, h2⟩ := ih (fun b hb => hl b (by simp [hb]))
  have hs := hl a (by simp)
  cases a with
  | commit d =>
    obtain ⟨hS, hr, -⟩ := commit_same ha
    exact ⟨by rw [hr]; exact h1, by rw [hS.win]; exact h2⟩
  | repair =>
    obtain ⟨r, -, rfl⟩ := generateRepair_inv ha
    exact ⟨h1, h2⟩
  | setRate n =>
    simp only [Enc.act, Enc.setRate, bind_ok_iff, pure_ok_iff] at ha
    obtain ⟨_, -, rfl⟩ := ha
    exact ⟨hs, h2⟩
  | setWindow n =>
    simp only [Enc.act, Enc.setWindowSize, bind_ok_iff, pure_ok_iff] at ha
    obtain ⟨_, -, rfl⟩ := ha
    exact ⟨h1, hs⟩
  | setAdaptive b => cases ha; exact ⟨h1, h2⟩
  | setSystematic b => cases ha; exact ⟨h1, h2⟩
  | packet p =>
    rcases packet_inv ha with rfl | ⟨-, rfl⟩ | ⟨a, n, -, -, rfl⟩
    · exact ⟨h1, h2⟩
    · exact ⟨h1, h2⟩
    · refine ⟨?_, h2⟩
      show 0 < (if e.adaptive then if e.nbSentPackets > 0 then rateForLoss F (lossRate F e.nbSentPackets a.nbPackets) else rateForLoss F 0
        else e.rate)
      split
      · split
        · next hz => exact rateForLoss_pos hF _ (lossRate_le_one hF e.nbSentPackets a.nbPackets hz)
        · exact rateForLoss_pos hF 0 (by norm_num)
      · exact h1

/-- Every source in the window is a datum that the interface allows. -/
theorem sane_window {acts : List EAct} {e : Enc} (hl : ∀ a ∈ acts, a.Sane w) (h : Enc.init.after gf F dbg acts = .ok e) :
    ∀ s ∈ e.sources, DataOk w s.sym := by
  refine after_induct (gf := gf) (F := F) (dbg := dbg) (Q := fun acts e => (∀ a ∈ acts, a.Sane w) → ∀ s ∈ e.sources, DataOk w s.sym)
    _ ?_ ?_ acts e h hl
  · intro _ s hs; cases hs
  rintro acts e a e' - ih ha hl
  have h1 := ih (fun b hb => hl b (by simp [hb]))
  have hs := hl a (by simp)
  cases a with
  | commit d =>
    obtain ⟨e1, e2, rfl, h2, h3, h4⟩ := commit_inv ha
    have hdd : ∀ s ∈ e.room ++ [(⟨e.curSrc, d⟩ : ESource)], DataOk w s.sym := by
      intro s h
      rcases List.mem_append.1 h with h | h
      · exact h1 s ((room_sublist e).subset h)
      · simp only [List.mem_singleton] at h; subst h; exact hs
    rcases h2 with ⟨-, rfl⟩ | ⟨-, r, -, rfl⟩ <;> rcases h4 with ⟨-, rfl⟩ | ⟨-, r2, -, rfl⟩ <;> exact hdd
  | repair =>
    obtain ⟨r, -, rfl⟩ := generateRepair_inv ha
    exact h1
  | setRate n =>
    simp only [Enc.act, Enc.setRate, bind_ok_iff, pure_ok_iff] at ha
    obtain ⟨_, -, rfl⟩ := ha
    exact h1
  | setWindow n =>
    simp only [Enc.act, Enc.setWindowSize, bind_ok_iff, pure_ok_iff] at ha
    obtain ⟨_, -, rfl⟩ := ha
    exact h1
  | setAdaptive b => cases ha; exact h1
  | setSystematic b => cases ha; exact h1
  | packet p =>
    rcases packet_inv ha with rfl | ⟨-, rfl⟩ | ⟨a, n, -, -, rfl⟩
    · exact h1
    · exact h1
    · intro s hs
      exact h1 s ((eraseIds_sublist _ _).subset hs)

/-- A repair of sources that are not empty, in any order: it is made, and it is not empty. -/
theorem encodeRepair_total [Fact (0 < w)] (gf : GF w) (dbg : Bool) (id : Nat) (T : List ESource) (hne : T ≠ []) (hP : ∀ x ∈ T, DataOk w x.sym) :
    ∃ r, encodeRepair gf dbg id T = .ok r ∧ 0 < r.sym.length := by
  have fold : ∀ (T : List ESource) (r : ERepair), (∀ x ∈ T, DataOk w x.sym) → 0 < r.sym.length →
      ∃ r', T.foldlM (encodeStep gf) r = .ok r' ∧ 0 < r'.sym.length := by
    intro T
    induction T with
    | nil => intro r _ hr; exact ⟨r, rfl, hr⟩
    | cons s t ih =>
      intro r hP hr
      have hd := hP s (by simp)
      have hsz : s.size = s.sym.length := size_eq hd
      obtain ⟨y, hy, hl, -⟩ := gfMultiplyAdd_ok gf s.sym
        (if s.size > r.sym.length then r.sym ++ List.replicate (s.size - r.sym.length) 0#8 else r.sym) s.size
        (coefficient w r.id s.id) (by omega) (by split <;> (try simp only [List.length_append, List.length_replicate]) <;> omega) (by rw [hsz]; exact hd.2.2)
      have hstep : ∃ r', encodeStep gf r s = .ok r' ∧ r'.sym = y := by
        unfold encodeStep
        simp only [hy]
        exact ⟨_, rfl, rfl⟩
      obtain ⟨r', hstep, hy'⟩ := hstep
      rw [List.foldlM_cons, hstep]
      refine ih _ (fun x hx => hP x (by simp [hx])) ?_
      rw [hy', hl]
      split <;> (try simp only [List.length_append, List.length_replicate]) <;> omega
  cases T with
  | nil => exact absurd rfl hne
  | cons s t =>
    have hd := hP s (by simp)
    have hsz : s.size = s.sym.length := size_eq hd
    obtain ⟨r1, e1, l1, -⟩ := gfMultiply_ok gf s.sym s.size (coefficient w id s.id) (by omega) (by rw [hsz]; exact hd.2.2)
    simp only [encodeRepair, e1]
    exact fold t _ (fun x hx => hP x (by simp [hx])) (by have := hd.1; show 0 < r1.length; omega)

/-- A call does not fail. -/
theorem sane_ok (hv : ValidW w) (hF : F.Ok) {acts : List EAct} {e : Enc} (hl : ∀ a ∈ acts, a.Sane w)
    (h : Enc.init.after gf F dbg acts = .ok e) (a : EAct) (ha : a.Sane w) (hw : a = .repair → e.window ≠ 0) :
    ∃ e', e.act gf F dbg a = .ok e' := by
  have := fact_of_valid hv
  obtain ⟨hr, hz⟩ := sane_settings hF hl h
  have hdo := sane_window hl h
  -- a repair of a window that is not empty
  have hrep : ∀ e1 : Enc, e1.sources ≠ [] → (∀ s ∈ e1.sources, DataOk w s.sym) →
      ∃ r, e1.generateRepair gf dbg = .ok (e1.sentRepair r) := by
    intro e1 h1 h2
    obtain ⟨r, h4, h5⟩ := encodeRepair_total gf dbg e1.curRep e1.sources h1 h2
    refine ⟨r, ?_⟩
    unfold Enc.generateRepair
    rw [h4]
    simp only [bind, Except.bind]
    rw [cassert_true _ (by simpa using h5)]
    rfl
  cases a with
  | commit d =>
    have hdd : DataOk w d := ha
    have hS : ∀ s ∈ e.room ++ [⟨e.curSrc, d⟩], DataOk w s.sym := by
      intro s hs
      rcases List.mem_append.1 hs with hs | hs
      · exact hdo s ((room_sublist e).subset hs)
      · simp only [List.mem_singleton] at hs; subst hs; exact hdd
    have hemit : ∃ e2, Enc.emitNew gf dbg ⟨e.curSrc, d⟩ { e with sources := e.room ++ [⟨e.curSrc, d⟩] } = .ok e2 ∧
        e2.sources = e.room ++ [⟨e.curSrc, d⟩] ∧ e2.rate = e.rate := by
      unfold Enc.emitNew
      split
      · exact ⟨_, rfl, rfl, rfl⟩
      · obtain ⟨r, hg⟩ := hrep { e with sources := e.room ++ [⟨e.curSrc, d⟩] } (by simp) hS
        exact ⟨_, hg, rfl, rfl⟩
    obtain ⟨e2, h2, h3, h4⟩ := hemit
    have hauto : ∃ e3, e2.autoRepair gf dbg = .ok e3 := by
      unfold Enc.autoRepair
      have : (e2.rate != 0) = true := by rw [h4]; simp; omega
      rw [this]
      simp only [ensure, if_true, bind, Except.bind]
      split
      · obtain ⟨r, hg⟩ := hrep e2 (by rw [h3]; simp) (by rw [h3]; exact hS)
        exact ⟨_, hg⟩
      · exact ⟨_, rfl⟩
    obtain ⟨e3, h5⟩ := hauto
    obtain ⟨hd1, hd2, hd3⟩ := hdd
    have hfin : e.commit gf dbg d = .ok { e3 with curSrc := (e3.curSrc + 1) % 2 ^ 32 } := by
      unfold Enc.commit
      rw [cassert_true _ (by simpa using Nat.ne_of_gt hd1), cassert_true _ (by
          simp only [decide_eq_true_eq]
          by_cases h16 : w = 16
          · right; subst h16; omega
          · left; exact h16), cassert_true _ (by
          simp only [decide_eq_true_eq]
          by_cases h32 : w = 32
          · right; subst h32; omega
          · left; exact h32)]
      have : (!(e.sources.length == e.windowSize && e.sources.isEmpty)) = true := by
        cases hs : e.sources with
        | nil => simp; omega
        | cons s t => simp
      rw [this]
      simp only [ensure, if_true, bind, Except.bind]
      have h2' := h2
      unfold Enc.room at h2'
      rw [h2']
      simp only
      rw [h5]
      rfl
    exact ⟨_, hfin⟩
  | repair =>
    obtain ⟨r, hg⟩ := hrep e (by
      intro h0
      exact hw rfl (by rw [Enc.window, h0]; rfl)) hdo
    exact ⟨_, hg⟩
  | setRate n =>
    have : 0 < n := ha
    simp only [Enc.act, Enc.setRate]
    rw [cassert_true _ (by simpa using this)]
    exact ⟨_, rfl⟩
  | setWindow n =>
    have : 0 < n := ha
    simp only [Enc.act, Enc.setWindowSize]
    rw [cassert_true _ (by simpa using this)]
    exact ⟨_, rfl⟩
  | setAdaptive b => exact ⟨_, rfl⟩
  | setSystematic b => exact ⟨_, rfl⟩
  | packet p =>
    obtain ⟨e', r, h1, -⟩ := C06_encoder_total F dbg e p ha
    exact ⟨e', by simp only [Enc.act, h1]; rfl⟩

/-- **C94.** After any history of allowed calls, of any length and with any bytes received, a call of an encoder fails exactly if it
asks for a repair and the window is empty: commits, settings and packets of any bytes do not fail. -/
theorem C94_no_call_fails_partial (hv : ValidW w) (hF : F.Ok) {acts : List EAct} {e : Enc} (hl : ∀ a ∈ acts, a.Sane w)
    (h : Enc.init.after gf F dbg acts = .ok e) (a : EAct) (ha : a.Sane w) :
    (∃ e', e.act gf F dbg a = .ok e') ↔ ¬ (a = .repair ∧ e.window = 0) := by
  constructor
  · rintro ⟨e', h'⟩ ⟨rfl, h0⟩
    have hs : e.sources = [] := List.eq_nil_of_length_eq_zero h0
    simp only [Enc.act, Enc.generateRepair, hs, encodeRepair] at h'
    cases dbg <;> cases h'
  · intro hn
    exact sane_ok hv hF hl h a ha (fun h1 h2 => hn ⟨h1, h2⟩)

/-- **C94**, histories: any sequence of allowed calls in which no repair is asked for. -/
theorem C94_no_history_fails (hv : ValidW w) (hF : F.Ok) (acts : List EAct) (hl : ∀ a ∈ acts, a.Sane w) (hr : EAct.repair ∉ acts) :
    ∃ e, Enc.init.after gf F dbg acts = .ok e := by
  induction acts using List.reverseRecOn with
  | nil => exact ⟨_, rfl⟩
  | append_singleton t a ih =>
    obtain ⟨e, h⟩ := ih (fun b hb => hl b (by simp [hb])) (fun hb => hr (by simp [hb]))
    obtain ⟨e', h'⟩ := sane_ok hv hF (fun b hb => hl b (by simp [hb])) h a (hl a (by simp)) (fun h0 => absurd (by simp [h0]) hr)
    refine ⟨e', after_append_of h ?_⟩
    unfold Enc.after
    rw [List.foldlM_cons, h']
    rfl

/-- An ack of source 0 that nobody sent. -/
def forgedAck : List Byte := [0, 0, 1, 0, 1, 0, 0, 0, 0]

/-- **C94 fails** when repairs are asked for: one datum, and an ack that somebody made up. The window is empty, and the repair the
application asks for is undefined behaviour (with assertions: an assertion fails). -/
theorem C94_false (dbg : Bool) : ∃ e, Enc.init.after gf8 F0 dbg [.commit [1, 2], .packet forgedAck] = .ok e ∧
    e.act gf8 F0 dbg .repair = .error (if dbg then .assertion else .ub .derefEnd) := by
  have hv : (Enc.init.after gf8 F0 dbg [.commit [1, 2], .packet forgedAck]).toOption.any (fun e =>
      decide (faultOf (e.act gf8 F0 dbg .repair) = some (if dbg then .assertion else .ub .derefEnd))) = true := by
    revert dbg; decide +kernel
  revert hv
  cases Enc.init.after gf8 F0 dbg [.commit [1, 2], .packet forgedAck] with
  | error e => intro hv; cases hv
  | ok e =>
    intro hv
    simp only [Except.toOption, Option.any_some, decide_eq_true_eq] at hv
    exact ⟨e, rfl, eq_of_faultOf hv⟩

/-- The theorems apply: commits and settings between bytes that are no packets, an ack that names sources not yet committed, and one
that reports more packets than were sent. -/
example (dbg : Bool) : ∃ e, Enc.init.after gf8 F0 dbg
    [.setAdaptive true, .commit [1], .packet [9], .packet [0, 0], .packet forgedAck, .packet [0, 255, 255, 0, 1, 0, 0, 0, 7],
     .setSystematic false, .commit [1, 2, 3]] = .ok e := by
  refine C94_no_history_fails (by decide) F0_ok _ (fun a ha => ?_) (by decide)
  fin_cases ha <;> first | trivial | (show DataOk 8 _; decide) | (show _ ≠ []; decide)

end Netcode
