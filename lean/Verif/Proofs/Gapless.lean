import Verif.Spec.Gapless
import Verif.Props.Line
import Verif.Props.Encoder

/-!
# What leaves the window without eviction is known
-/

set_option linter.unusedSectionVars false

namespace Netcode

variable {w : Nat} {c : Cfg w} {io : Bool} {s : Sys}

/-- What the encoder has dropped, and what is older than the first source of a repair, is known to the decoder. -/
structure Gapless (s : Sys) : Prop where
  win : ∀ x < s.committed.length, x ∈ s.enc.win ∨ s.dec.det.Knows x
  rep : ∀ r, EPkt.repair r ∈ s.enc.out → ∀ l, r.ids.head? = some l → ∀ x < l, s.dec.det.Knows x

theorem roomReach_reach (h : RoomReach c io s) : Reach c io s := by
  induction h with
  | init => exact .init
  | step _ h2 _ h4 ih => exact .step ih h2 h4

theorem mem_repairsOf {l : List EPkt} {r : ERepair} : r ∈ repairsOf l ↔ EPkt.repair r ∈ l := by
  induction l with
  | nil => simp [repairsOf]
  | cons p t ih => cases p <;> simp [repairsOf, ih]

theorem mem_sourcesOf {l : List EPkt} {sr : ESource} : sr ∈ sourcesOf l ↔ EPkt.source sr ∈ l := by
  induction l with
  | nil => simp [sourcesOf]
  | cons p t ih => cases p <;> simp [sourcesOf, ih]

/-- A step of the encoder: what it leaves in the window and the repairs it emits. -/
theorem step_encoder {s' : Sys} {a : Act} (h : s.step c a = .ok s') :
    (∀ r, EPkt.repair r ∈ s'.enc.out → EPkt.repair r ∈ s.enc.out ∨ ∃ rid, encodeRepair c.gf c.dbg rid s'.enc.sources = .ok r) ∧
    (∀ x ∈ s.enc.win, Roomy s a → x ∈ s'.enc.win ∨
      ∃ j k p n, a = .ack j ∧ s.dec.out[j]? = some p ∧ readAck (writeAck p).flatten = .ok (k, n) ∧ x ∈ k.ids) ∧
    (∀ d, a = .commit d → s.enc.curSrc ∈ s'.enc.win) := by
  have key : ∀ {b : EAct}, s.enc.act c.gf c.F c.dbg b = .ok s'.enc →
      ∀ r, EPkt.repair r ∈ s'.enc.out → EPkt.repair r ∈ s.enc.out ∨ ∃ rid, encodeRepair c.gf c.dbg rid s'.enc.sources = .ok r := by
    intro b hb r hr
    obtain ⟨t, ht⟩ := step_out h
    rw [← ht] at hr
    rcases List.mem_append.1 hr with hr | hr
    · exact Or.inl hr
    · right
      refine new_repairs hb (r := r) ?_
      rw [← ht, List.drop_left]
      exact mem_repairsOf.2 hr
  cases a <;> simp only [Sys.step, bind_ok_iff, pure_ok_iff] at h
  case commit d =>
    obtain ⟨e, h1, rfl⟩ := h
    refine ⟨key (b := .commit d) h1, ?_, ?_⟩
    · intro x hx hr
      left
      have hr : s.enc.sources.length ≠ s.enc.windowSize := hr
      show x ∈ e.win
      unfold Enc.win
      rw [(commit_sources h1).1, Enc.room, if_neg hr]
      exact List.mem_map.2 (by
        obtain ⟨y, hy, rfl⟩ := List.mem_map.1 hx
        exact ⟨y, List.mem_append_left _ hy, rfl⟩)
    · intro d' _
      show s.enc.curSrc ∈ e.win
      unfold Enc.win
      rw [(commit_sources h1).1]
      simp
  case repair =>
    obtain ⟨e, h1, rfl⟩ := h
    refine ⟨key (b := .repair) h1, ?_, by intro d hd; cases hd⟩
    intro x hx _
    left
    obtain ⟨r, _, rfl⟩ := generateRepair_inv h1
    exact hx
  case ack j =>
    split at h
    · cases h
      exact ⟨fun r hr => Or.inl hr, fun x hx _ => Or.inl hx, by intro d hd; cases hd⟩
    · next p hp =>
      simp only [bind_ok_iff, pure_ok_iff] at h
      obtain ⟨⟨e, r⟩, h1, rfl⟩ := h
      refine ⟨fun q hq => Or.inl ?_, ?_, by intro d hd; cases hd⟩
      · simp only [enc_notify_out h1] at hq; exact hq
      · intro x hx _
        have h2 : s.enc.act c.gf c.F c.dbg (.packet (writeAck p).flatten) = .ok e := by
          simp only [Enc.act, h1]; rfl
        rcases act_sources (by intro d hd; cases hd) h2 with h3 | ⟨q, k, n, hq, -, hk, h3⟩
        · left; show x ∈ e.win; unfold Enc.win; rw [h3]; exact hx
        · cases hq
          by_cases hxk : x ∈ k.ids
          · exact Or.inr ⟨j, k, p, n, rfl, hp, hk, hxk⟩
          · left
            show x ∈ e.win
            unfold Enc.win
            rw [h3]
            obtain ⟨y, hy, rfl⟩ := List.mem_map.1 hx
            exact List.mem_map.2 ⟨y, mem_eraseIds hy hxk, rfl⟩
  case deliver i =>
    split at h
    · cases h
      exact ⟨fun r hr => Or.inl hr, fun x hx _ => Or.inl hx, by intro d hd; cases hd⟩
    · simp only [bind_ok_iff, pure_ok_iff] at h
      obtain ⟨_, _, rfl⟩ := h
      exact ⟨fun r hr => Or.inl hr, fun x hx _ => Or.inl hx, by intro d hd; cases hd⟩
  case setRate n =>
    obtain ⟨e, h1, rfl⟩ := h
    simp only [Enc.setRate, bind_ok_iff, pure_ok_iff] at h1
    obtain ⟨_, _, rfl⟩ := h1
    exact ⟨fun r hr => Or.inl hr, fun x hx _ => Or.inl hx, by intro d hd; cases hd⟩
  case setWindow n =>
    obtain ⟨e, h1, rfl⟩ := h
    simp only [Enc.setWindowSize, bind_ok_iff, pure_ok_iff] at h1
    obtain ⟨_, _, rfl⟩ := h1
    exact ⟨fun r hr => Or.inl hr, fun x hx _ => Or.inl hx, by intro d hd; cases hd⟩
  case setAckNb n =>
    obtain ⟨d, h1, rfl⟩ := h
    exact ⟨fun r hr => Or.inl hr, fun x hx _ => Or.inl hx, by intro d hd; cases hd⟩
  all_goals
    cases h
    exact ⟨fun r hr => Or.inl hr, fun x hx _ => Or.inl hx, by intro d hd; cases hd⟩

theorem knows_of_hasData {d : Dec} {x : Nat} {y : List Byte} (h : d.HasData x y) : d.Knows x := by
  rcases h with ⟨ev, h1, h2, _⟩ | h
  · exact Or.inl (List.mem_map.2 ⟨ev, h1, h2⟩)
  · right
    by_contra hn
    rw [(OMap.get?_eq_none_iff _ _).2 hn] at h
    cases h

theorem gapless_step (hc : c.Ok) (h : Reach c io s) (hg : Gapless s) {a : Act} (ha : Allowed c s a) (hr : Roomy s a) {s' : Sys}
    (hs : s.step c a = .ok s') : Gapless s' := by
  have := fact_of_valid hc.width
  have hk := (C04_known_forever_partial hc h a ha s' hs).1
  obtain ⟨h1, h2, h3⟩ := step_encoder hs
  have hcom := step_committed hs
  obtain ⟨ems, A, ρ, L, W, K, hI⟩ := inv_of_reach hc h
  have hwin : ∀ x < s'.committed.length, x ∈ s'.enc.win ∨ s'.dec.det.Knows x := by
    intro x hx
    by_cases hlt : x < s.committed.length
    · rcases hg.win x hlt with hw | hw
      · rcases h2 x hw hr with h4 | ⟨j, k, p, n, rfl, h4, h5, h6⟩
        · exact Or.inl h4
        · right
          have hmem := List.mem_of_getElem? h4
          have ho := hI.acks.out p hmem
          have : k = p := by
            have := readAck_writeAck p ho.2.2 (ha p h4)
            rw [this] at h5
            cases h5; rfl
          subst this
          exact hk x (knows_of_hasData (C24_acks_known_partial hc h k hmem x h6).2)
      · exact Or.inr (hk x hw)
    · cases a with
      | commit d =>
        rw [hcom] at hx
        simp only [Act.commits, List.length_append, List.length_cons, List.length_nil] at hx
        obtain rfl : x = s.committed.length := by omega
        left
        rw [← hI.cur]
        exact h3 d rfl
      | _ => rw [hcom] at hx; simp [Act.commits] at hx; exact absurd hx hlt
  refine ⟨hwin, ?_⟩
  intro r hrm l hl x hx
  rcases h1 r hrm with h4 | ⟨rid, h4⟩
  · exact hk x (hg.rep r h4 l hl x hx)
  · obtain ⟨ems', A', ρ', L', W', K', hI'⟩ := inv_of_reach hc (Reach.step (a := a) h ha hs)
    have hsrt : Sorted (s'.enc.sources.map (·.id)) := hI'.enc.srcSorted
    obtain ⟨r', h5, h6⟩ := encodeRepair_ok c.gf hc.width c.dbg rid s'.enc.sources (encodeRepair_ne h4) (by
      intro y hy
      rw [hI'.enc.srcs] at hy
      obtain ⟨z, hz, rfl⟩ := List.mem_map.1 hy
      exact hI'.enc.dataOk z (hI'.enc.srcLt z hz)) hsrt
    rw [h4] at h5; cases h5
    rw [h6.ids] at hl
    have hlw : l ∈ s'.enc.win := List.mem_of_mem_head? hl
    rcases hwin x (by have := hI'.enc.srcLt l hlw; omega) with h7 | h7
    · exfalso
      change Sorted s'.enc.win at hsrt
      change s'.enc.win.head? = some l at hl
      cases hw : s'.enc.win with
      | nil => rw [hw] at hl; cases hl
      | cons y t =>
        rw [hw] at hl h7 hsrt
        cases hl
        rcases List.mem_cons.1 h7 with h8 | h8
        · omega
        · have := (List.pairwise_cons.1 hsrt).1 x h8
          omega
    · exact h7

theorem gapless_of_reach (hc : c.Ok) (h : RoomReach c io s) : Gapless s := by
  induction h with
  | init => exact ⟨fun x hx => absurd hx (Nat.not_lt_zero x), fun r hr => absurd hr List.not_mem_nil⟩
  | step h1 h2 h3 h4 ih => exact gapless_step hc (roomReach_reach h1) ih h2 h3 h4

/-- What is outdated is known. -/
theorem gapless_outdated (hc : c.Ok) (h : RoomReach c io s) {x : Nat} (hx : s.dec.det.Outdated x) : s.dec.det.Knows x := by
  have := fact_of_valid hc.width
  obtain ⟨ems, A, ρ, L, W, K, hI⟩ := inv_of_reach hc (roomReach_reach h)
  rw [hI.outdated_iff] at hx
  rcases hI.newest with ⟨_, _, h7, _⟩ | ⟨j, hj, Wl, g1, g2, g3, g4⟩
  · omega
  · have hlt : j < s.enc.out.length := by rw [hI.enc.outLen]; exact hI.histLt j hj
    have hren := hI.enc.rend j _ _ g1 (List.getElem?_eq_getElem hlt)
    obtain ⟨r, hr1, hr2, _⟩ := hren
    refine (gapless_of_reach hc h).rep r ?_ L ?_ x hx
    · rw [← hr1]; exact List.getElem_mem hlt
    · rw [← g3, hr2.ids, List.map_map]; exact congrArg _ (List.map_id _)

/-! ## Concrete schedules -/

def runRoom (c : Cfg w) : Sys → List Act → Option Sys
  | s, [] => some s
  | s, a :: t =>
    if Line w s a ∧ Roomy s a then
      match s.step c a with
      | .ok s' => runRoom c s' t
      | .error _ => none
    else none

theorem roomLine_of_run (acts : List Act) (h : RoomLine c io s) {s' : Sys} (hr : runRoom c s acts = some s') : RoomLine c io s' := by
  induction acts generalizing s with
  | nil => cases hr; exact h
  | cons a t ih =>
    unfold runRoom at hr
    split at hr
    · next ha =>
      split at hr
      · next s1 h1 => exact ih (.step h ha.1 ha.2 h1) hr
      · cases hr
    · cases hr

/-- The state reached by correct calls and arrivals in order, without evictions. -/
@[irreducible] def roomReached (c : Cfg w) (io : Bool) (acts : List Act) : Sys :=
  (runRoom c (Sys.init c.clk io) acts).getD (Sys.init c.clk io)

theorem roomReached_line {acts : List Act} (h : (runRoom c (Sys.init c.clk io) acts).isSome = true) :
    RoomLine c io (roomReached c io acts) := by
  obtain ⟨s, hs⟩ := Option.isSome_iff_exists.1 h
  unfold roomReached
  rw [hs]
  exact roomLine_of_run acts .init hs

end Netcode
