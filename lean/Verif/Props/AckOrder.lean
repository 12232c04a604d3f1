import Verif.Spec.AckOrder
import Verif.Props.Encoder
import Verif.Proofs.Settings

/-! # The order of acks does not matter (C96) -/

namespace Netcode

variable {w : Nat} {gf : GF w} {F : F64} {dbg : Bool}

theorem snoc_split {α : Type} {acts pre post : List α} {a b : α} (h : acts ++ [a] = pre ++ b :: post) :
    (∃ post', post = post' ++ [a] ∧ acts = pre ++ b :: post') ∨ (post = [] ∧ b = a ∧ pre = acts) := by
  rcases List.eq_nil_or_concat post with rfl | ⟨p', y, rfl⟩
  · right
    have := List.append_inj' h rfl
    refine ⟨rfl, ?_, this.1.symm⟩
    have h2 := this.2
    simp only [List.cons.injEq, and_true] at h2
    exact h2.symm
  · left
    rw [List.concat_eq_append] at h ⊢
    have h' : acts ++ [a] = (pre ++ b :: p') ++ [y] := by rw [h]; simp
    have := List.append_inj' h' rfl
    have h2 := this.2
    simp only [List.cons.injEq, and_true] at h2
    exact ⟨p', by rw [h2], this.1⟩

theorem acked_snoc (acts : List EAct) (a : EAct) (x : Nat) :
    Acked (acts ++ [a]) x ↔ Acked acts x ∨ (x < (commitsOf acts).length ∧ a.Names x) := by
  constructor
  · rintro ⟨pre, b, post, h1, h2, h3⟩
    rcases snoc_split h1 with ⟨post', -, h5⟩ | ⟨-, rfl, rfl⟩
    · exact Or.inl ⟨pre, b, post', h5, h2, h3⟩
    · exact Or.inr ⟨h2, h3⟩
  · rintro (⟨pre, b, post, rfl, h2, h3⟩ | ⟨h2, h3⟩)
    · exact ⟨pre, b, post ++ [a], by simp, h2, h3⟩
    · exact ⟨acts, a, [], rfl, h2, h3⟩

theorem windowSet_mem (acts : List EAct) : windowSet acts = 2 ^ 64 - 1 ∨ EAct.setWindow (windowSet acts) ∈ acts := by
  unfold windowSet
  cases h : (acts.filterMap fun | .setWindow n => some n | _ => none).getLast? with
  | none => exact .inl rfl
  | some n =>
    right
    obtain ⟨a, ha, hb⟩ := List.mem_filterMap.1 (List.mem_of_getLast? h)
    cases a <;> simp_all

theorem after_windowSize {acts : List EAct} {e : Enc} (h : Enc.init.after gf F dbg acts = .ok e) :
    e.windowSize = 2 ^ 64 - 1 ∨ EAct.setWindow e.windowSize ∈ acts := by
  rw [(settings_after h).2.1]
  exact windowSet_mem acts

theorem ample_prefix {acts : List EAct} {a : EAct} (h : AmpleWindow (acts ++ [a])) : AmpleWindow acts := by
  intro n hn
  have := h n (by simp [hn])
  rw [commitsOf_append, List.length_append] at this
  omega

theorem window_le {acts : List EAct} {e : Enc} (hn : (commitsOf acts).length ≤ 2 ^ 32) (h : Enc.init.after gf F dbg acts = .ok e) :
    e.sources.length ≤ (commitsOf acts).length := by
  have hw := eWin h hn
  have h1 : (e.sources.map (·.id)).Nodup := List.Pairwise.imp (fun h => Nat.ne_of_lt h) hw.sorted
  have := (h1.subperm (l₂ := List.range (commitsOf acts).length) (by
    intro x hx
    obtain ⟨s, hs, rfl⟩ := List.mem_map.1 hx
    rw [List.mem_range]
    exact getElem?_lt (hw.data s hs))).length_le
  simpa using this

/-- **C96.** With a window that is large enough, it holds exactly the data committed that no ack that arrived after their commits names. -/
theorem C96_window {acts : List EAct} {e : Enc} (hn : (commitsOf acts).length ≤ 2 ^ 32) (hr : AmpleWindow acts)
    (h : Enc.init.after gf F dbg acts = .ok e) (s : ESource) :
    s ∈ e.sources ↔ (commitsOf acts)[s.id]? = some s.sym ∧ ¬ Acked acts s.id := by
  refine (after_induct (Q := fun acts e => Enc.init.after gf F dbg acts = .ok e ∧ ((commitsOf acts).length ≤ 2 ^ 32 → AmpleWindow acts →
    ∀ s, s ∈ e.sources ↔ (commitsOf acts)[s.id]? = some s.sym ∧ ¬ Acked acts s.id)) _ ?_ ?_ acts e h).2 hn hr s
  · exact ⟨rfl, fun _ _ s => by simp [Enc.init, commitsOf]⟩
  clear h hn hr s
  rintro acts e a e' - ⟨h0, hi⟩ hs
  have hs' : Enc.init.after gf F dbg (acts ++ [a]) = .ok e' := by
    unfold Enc.after at h0 ⊢
    rw [List.foldlM_append, h0]
    simp only [bind, Except.bind, List.foldlM_cons, hs, List.foldlM_nil]; rfl
  refine ⟨hs', fun hn hr s => ?_⟩
  have hlen : (commitsOf acts).length ≤ (commitsOf (acts ++ [a])).length := by rw [commitsOf_append, List.length_append]; omega
  have hq := hi (by omega) (ample_prefix hr) s
  rw [acked_snoc]
  by_cases ha : ∃ d, a = .commit d
  · obtain ⟨d, rfl⟩ := ha
    have hc : commitsOf (acts ++ [.commit d]) = commitsOf acts ++ [d] := by rw [commitsOf_append]; rfl
    rw [hc] at hn hlen ⊢
    rw [List.length_append, List.length_singleton] at hn
    have hcur : e.curSrc = (commitsOf acts).length := by rw [(eHist h0).curSrc]; exact Nat.mod_eq_of_lt (by omega)
    have hroom : e.room = e.sources := by
      unfold Enc.room
      rw [if_neg]
      intro q
      have hle := window_le (by omega) h0
      rcases after_windowSize h0 with h1 | h1
      · omega
      · have := hr _ (by simp only [List.mem_append]; exact Or.inl h1)
        rw [hc, List.length_append] at this
        omega
    rw [(commit_sources hs).1, hroom, hcur, List.mem_append, List.mem_singleton, hq]
    constructor
    · rintro (⟨h1, h2⟩ | rfl)
      · refine ⟨by rw [List.getElem?_append_left (getElem?_lt h1)]; exact h1, ?_⟩
        rintro (h3 | ⟨-, h3⟩)
        · exact h2 h3
        · exact h3
      · refine ⟨by simp, ?_⟩
        rintro (⟨pre, b, post, h3, h4, -⟩ | ⟨-, h3⟩)
        · rw [h3, commitsOf_append, List.length_append] at h4
          simp only at h4
          omega
        · exact h3
    · rintro ⟨h1, h2⟩
      by_cases hlt : s.id < (commitsOf acts).length
      · rw [List.getElem?_append_left hlt] at h1
        exact Or.inl ⟨h1, fun h3 => h2 (Or.inl h3)⟩
      · right
        have hlt' := getElem?_lt h1
        rw [List.length_append, List.length_singleton] at hlt'
        have e1 : s.id = (commitsOf acts).length := by omega
        rw [e1, List.getElem?_concat_length] at h1
        obtain ⟨i, y⟩ := s
        simp only [Option.some.injEq] at h1 e1
        rw [e1, h1]
  · have hc : commitsOf (acts ++ [a]) = commitsOf acts := by
      rw [commitsOf_append]
      cases a <;> first | exact absurd ⟨_, rfl⟩ ha | simp [commitsOf]
    rw [hc] at hn ⊢
    by_cases hack : ∃ p k n, a = .packet p ∧ getPacketType p = .ok .ack ∧ readAck p = .ok (k, n)
    · obtain ⟨p, k, n, rfl, hp, hk⟩ := hack
      obtain ⟨e2, g1, g2, -⟩ := C23_ack_removes hn h0 hp hk
      have : e2 = e' := by
        simp only [Enc.act] at hs
        rw [g1] at hs
        cases hs; rfl
      subst this
      rw [g2, List.mem_filter, hq, decide_eq_true_eq]
      have hnm : EAct.Names s.id (.packet p) ↔ s.id ∈ k.ids := by
        constructor
        · rintro ⟨k', n', -, h2, h3⟩
          rw [hk] at h2
          cases h2; exact h3
        · exact fun h => ⟨k, n, hp, hk, h⟩
      rw [hnm]
      constructor
      · rintro ⟨⟨h1, h2⟩, h3⟩
        exact ⟨h1, fun h => h.elim h2 (fun h => h3 h.2)⟩
      · rintro ⟨h1, h2⟩
        exact ⟨⟨h1, fun h => h2 (Or.inl h)⟩, fun h => h2 (Or.inr ⟨getElem?_lt h1, h⟩)⟩
    · have hno : ¬ a.Names s.id := by
        cases a with
        | packet p =>
          rintro ⟨k, n, h1, h2, -⟩
          exact hack ⟨p, k, n, rfl, h1, h2⟩
        | _ => exact id
      rcases act_sources (fun d e => ha ⟨d, e⟩) hs with h1 | ⟨p, k, n, h1, h2, h3, -⟩
      · rw [h1, hq]
        simp [hno]
      · exact absurd ⟨p, k, n, h1, h2, h3⟩ hack

/-- **C96.** Two histories with the same data, in the same order, leave the same window, if the same sources are named by acks that arrived after their
commits: when these acks arrived, how often and in which order makes no difference, nor does anything else that was done. -/
theorem C96_same {v : Nat} {gf' : GF v} {F' : F64} {dbg' : Bool} {acts acts' : List EAct} {e e' : Enc} (hn : (commitsOf acts).length ≤ 2 ^ 32)
    (hr : AmpleWindow acts) (hr' : AmpleWindow acts') (hc : commitsOf acts = commitsOf acts') (hk : ∀ x, Acked acts x ↔ Acked acts' x)
    (h : Enc.init.after gf F dbg acts = .ok e) (h' : Enc.init.after gf' F' dbg' acts' = .ok e') : e.sources = e'.sources := by
  have hm : ∀ s, s ∈ e.sources ↔ s ∈ e'.sources := by
    intro s
    rw [C96_window hn hr h, C96_window (hc ▸ hn) hr' h', hc, hk]
  have hs := (eWin h hn).sorted
  have hs' := (eWin h' (hc ▸ hn)).sorted
  unfold Sorted at hs hs'
  rw [List.pairwise_map] at hs hs'
  exact List.Perm.eq_of_pairwise (le := fun a b : ESource => a.id < b.id) (fun a b _ _ h1 h2 => absurd h1 (by omega)) hs hs'
    ((List.perm_ext_iff_of_nodup (hs.imp (fun h e => by rw [e] at h; omega)) (hs'.imp (fun h e => by rw [e] at h; omega))).2 hm)

theorem acked_causal {acts : List EAct} (h : Causal acts) (x : Nat) : Acked acts x ↔ ∃ a ∈ acts, a.Names x := by
  constructor
  · rintro ⟨pre, a, post, rfl, -, h3⟩
    exact ⟨a, by simp, h3⟩
  · rintro ⟨a, ha, h3⟩
    obtain ⟨pre, post, e⟩ := List.append_of_mem ha
    exact ⟨pre, a, post, e, h pre a post x e h3, h3⟩

/-- **C96.** In particular if the same acks arrived, in any order, each of them once or more often, none of them before the data that it names. -/
theorem C96_order {acts acts' : List EAct} {e e' : Enc} (hn : (commitsOf acts).length ≤ 2 ^ 32) (hr : AmpleWindow acts) (hr' : AmpleWindow acts')
    (hc : commitsOf acts = commitsOf acts') (h1 : Causal acts) (h1' : Causal acts') (hk : ∀ p, EAct.packet p ∈ acts ↔ EAct.packet p ∈ acts')
    (h : Enc.init.after gf F dbg acts = .ok e) (h' : Enc.init.after gf F dbg acts' = .ok e') : e.sources = e'.sources := by
  refine C96_same hn hr hr' hc (fun x => ?_) h h'
  rw [acked_causal h1, acked_causal h1']
  constructor
  · rintro ⟨a, ha, hx⟩
    cases a with
    | packet p => exact ⟨_, (hk p).1 ha, hx⟩
    | _ => exact hx.elim
  · rintro ⟨a, ha, hx⟩
    cases a with
    | packet p => exact ⟨_, (hk p).2 ha, hx⟩
    | _ => exact hx.elim

/-- **C96.** However small the window is, nothing that an ack named after its commit is in it: it never comes back. -/
theorem C96_gone {acts : List EAct} {e : Enc} (hn : (commitsOf acts).length ≤ 2 ^ 32) (h : Enc.init.after gf F dbg acts = .ok e) :
    ∀ s ∈ e.sources, (commitsOf acts)[s.id]? = some s.sym ∧ ¬ Acked acts s.id := by
  refine (after_induct (Q := fun acts e => Enc.init.after gf F dbg acts = .ok e ∧ ((commitsOf acts).length ≤ 2 ^ 32 →
    ∀ s ∈ e.sources, (commitsOf acts)[s.id]? = some s.sym ∧ ¬ Acked acts s.id)) _ ?_ ?_ acts e h).2 hn
  · exact ⟨rfl, fun _ s hs => by simp [Enc.init] at hs⟩
  clear h hn
  rintro acts e a e' - ⟨h0, hi⟩ hs
  have hs' : Enc.init.after gf F dbg (acts ++ [a]) = .ok e' := by
    unfold Enc.after at h0 ⊢
    rw [List.foldlM_append, h0]
    simp only [bind, Except.bind, List.foldlM_cons, hs, List.foldlM_nil]; rfl
  refine ⟨hs', fun hn s hm => ⟨(eWin hs' hn).data s hm, ?_⟩⟩
  have hlen : (commitsOf acts).length ≤ (commitsOf (acts ++ [a])).length := by rw [commitsOf_append, List.length_append]; omega
  rw [acked_snoc]
  by_cases ha : ∃ d, a = .commit d
  · obtain ⟨d, rfl⟩ := ha
    have hc : commitsOf (acts ++ [.commit d]) = commitsOf acts ++ [d] := by rw [commitsOf_append]; rfl
    rw [hc, List.length_append, List.length_singleton] at hn
    have hcur : e.curSrc = (commitsOf acts).length := by rw [(eHist h0).curSrc]; exact Nat.mod_eq_of_lt (by omega)
    rw [(commit_sources hs).1, hcur, List.mem_append, List.mem_singleton] at hm
    rintro (h3 | ⟨-, h3⟩)
    · rcases hm with hm | rfl
      · refine (hi (by omega) s ?_).2 h3
        unfold Enc.room at hm
        split at hm
        · exact List.mem_of_mem_tail hm
        · exact hm
      · obtain ⟨pre, b, post, h3, h4, -⟩ := h3
        rw [h3, commitsOf_append, List.length_append] at h4
        simp only at h4
        omega
    · exact h3
  · rcases act_sources (fun d e => ha ⟨d, e⟩) hs with h1 | ⟨p, k, n, rfl, h2, h3, -⟩
    · rw [h1] at hm
      rintro (h4 | ⟨-, h4⟩)
      · exact (hi (by omega) s hm).2 h4
      · cases a with
        | packet p =>
          obtain ⟨k, n, h5, h6, h7⟩ := h4
          obtain ⟨e2, g1, g2, -⟩ := C23_ack_removes (by omega) h0 h5 h6
          have : e2 = e' := by
            simp only [Enc.act] at hs
            rw [g1] at hs
            cases hs; rfl
          subst this
          rw [← h1, g2, List.mem_filter, decide_eq_true_eq] at hm
          exact hm.2 h7
        | _ => exact h4
    · obtain ⟨e2, g1, g2, -⟩ := C23_ack_removes (by omega) h0 h2 h3
      have : e2 = e' := by
        simp only [Enc.act] at hs
        rw [g1] at hs
        cases hs; rfl
      subst this
      rw [g2, List.mem_filter, decide_eq_true_eq] at hm
      rintro (h4 | ⟨-, k', n', -, h5, h6⟩)
      · exact (hi (by omega) s hm.1).2 h4
      · rw [h3] at h5
        cases h5; exact hm.2 h6

/-- An ack of the sources given. -/
def ackP (ids : List Nat) : EAct := .packet (writeAck ⟨ids, ids.length⟩).flatten

example : ((Enc.init.after gf8 F0 true [.commit [1], .commit [2], ackP [1], .commit [3], ackP [0], .repair, ackP [0]]).map (·.sources) =
    .ok [⟨2, [3]⟩]) ∧
    ((Enc.init.after gf8 F0 true [.commit [1], .commit [2], .commit [3], ackP [0], ackP [1]]).map (·.sources) = .ok [⟨2, [3]⟩]) := by
  decide +kernel

/-- `C96_order` applies to these two. -/
example : Causal [.commit [1], .commit [2], ackP [1]] ∧ AmpleWindow [.setWindow 3, .commit [1], .commit [2], ackP [1]] := by
  constructor
  · intro pre a post x h hx
    have hk : ∀ (ids : List Nat) (x : Nat), ids = [1] → (ackP ids).Names x → x = 1 := by
      rintro ids x rfl ⟨k, n, -, h2, h3⟩
      have h4 : readAck (writeAck ⟨[1], 1⟩).flatten = .ok (⟨[1], 1⟩, 9) := by decide +kernel
      simp only [List.length_singleton] at h2
      rw [h4] at h2
      cases h2
      simpa using h3
    match pre, h with
    | [], h => simp only [List.nil_append, List.cons.injEq] at h; rw [← h.1] at hx; exact hx.elim
    | [_], h => simp only [List.cons_append, List.nil_append, List.cons.injEq] at h; rw [← h.2.1] at hx; exact hx.elim
    | [b, c], h =>
      simp only [List.cons_append, List.nil_append, List.cons.injEq] at h
      rw [← h.2.2.1] at hx
      rw [hk _ x rfl hx, ← h.1, ← h.2.1]
      decide
    | b :: c :: d :: l, h => simp at h
  · intro n hn
    simp [ackP] at hn
    subst hn
    decide

/-- **C96** needs the room: with a small window an ack that is late finds that the window has lost its oldest element already, which otherwise would have stayed. -/
theorem C96_needs_room : ∃ p : List Byte, ∃ e e' : Enc,
    Enc.init.after gf8 F0 true [.setWindow 2, .commit [1], .commit [2], .packet p, .commit [3]] = .ok e ∧
    Enc.init.after gf8 F0 true [.setWindow 2, .commit [1], .commit [2], .commit [3], .packet p] = .ok e' ∧
    e.sources = [⟨0, [1]⟩, ⟨2, [3]⟩] ∧ e'.sources = [⟨2, [3]⟩] := by
  have h : ∀ acts l, (Enc.init.after gf8 F0 true acts).map (·.sources) = .ok l →
      ∃ e, Enc.init.after gf8 F0 true acts = .ok e ∧ e.sources = l := by
    intro acts l h
    cases ho : Enc.init.after gf8 F0 true acts with
    | error x => rw [ho] at h; cases h
    | ok e => rw [ho] at h; cases h; exact ⟨e, rfl, rfl⟩
  obtain ⟨e, h1, h2⟩ := h [.setWindow 2, .commit [1], .commit [2], .packet (writeAck ⟨[1], 1⟩).flatten, .commit [3]]
    [⟨0, [1]⟩, ⟨2, [3]⟩] (by decide +kernel)
  obtain ⟨e', h3, h4⟩ := h [.setWindow 2, .commit [1], .commit [2], .commit [3], .packet (writeAck ⟨[1], 1⟩).flatten]
    [⟨2, [3]⟩] (by decide +kernel)
  exact ⟨_, e, e', h1, h3, h2, h4⟩

/-- **C96** needs the commits to come first: an ack that names a source not committed yet is forgotten. -/
theorem C96_needs_commit : ∃ p : List Byte, ∃ e e' : Enc,
    Enc.init.after gf8 F0 true [.packet p, .commit [1]] = .ok e ∧ Enc.init.after gf8 F0 true [.commit [1], .packet p] = .ok e' ∧
    e.sources = [⟨0, [1]⟩] ∧ e'.sources = [] := by
  have h : ∀ acts l, (Enc.init.after gf8 F0 true acts).map (·.sources) = .ok l →
      ∃ e, Enc.init.after gf8 F0 true acts = .ok e ∧ e.sources = l := by
    intro acts l h
    cases ho : Enc.init.after gf8 F0 true acts with
    | error x => rw [ho] at h; cases h
    | ok e => rw [ho] at h; cases h; exact ⟨e, rfl, rfl⟩
  obtain ⟨e, h1, h2⟩ := h [.packet (writeAck ⟨[0], 1⟩).flatten, .commit [1]] [⟨0, [1]⟩] (by decide +kernel)
  obtain ⟨e', h3, h4⟩ := h [.commit [1], .packet (writeAck ⟨[0], 1⟩).flatten] [] (by decide +kernel)
  exact ⟨_, e, e', h1, h3, h2, h4⟩

end Netcode
