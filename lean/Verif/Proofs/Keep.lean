import Verif.Proofs.DecLow

/-!
# What a decoder keeps, and which sources it may refer to
-/

namespace Netcode

open OMap

variable {w : Nat}

/-! ## The sources handed over are held -/

/-- Sources are stored under their own numbers. -/
def OwnId (s : Dec) : Prop := ∀ p ∈ s.sources, p.2.id = p.1

/-- Sources are only added; the sources handed over meanwhile are held at the end, or are among `P`. -/
structure Give (P : Nat → Prop) (s s' : Dec) : Prop where
  own : OwnId s → OwnId s'
  keys : ∀ x ∈ s.sources.keys, x ∈ s'.sources.keys
  new : OwnId s → ∀ ev ∈ s'.log.drop s.log.length, ev.id ∈ s'.sources.keys ∨ P ev.id
  pre : s.log <+: s'.log

theorem Give.refl (P : Nat → Prop) (s : Dec) : Give P s s := ⟨fun h => h, fun _ h => h, by simp, List.prefix_refl _⟩

theorem Give.trans {P : Nat → Prop} {a b c : Dec} (h : Give P a b) (g : Give P b c) : Give P a c := by
  refine ⟨fun o => g.own (h.own o), fun x hx => g.keys x (h.keys x hx), fun o ev hev => ?_, h.pre.trans g.pre⟩
  rw [drop_split h.pre g.pre, List.mem_append] at hev
  rcases hev with hev | hev
  · exact (h.new o ev hev).imp (g.keys _) id
  · exact g.new (h.own o) ev hev

theorem Give.weak {P Q : Nat → Prop} {a b : Dec} (h : Give P a b) (hq : ∀ x, P x → x ∈ b.sources.keys ∨ Q x) : Give Q a b :=
  ⟨h.own, h.keys, fun o ev hev => (h.new o ev hev).elim .inl (hq _), h.pre⟩

/-- Same sources, same log. -/
theorem Give.same {P : Nat → Prop} {s s' : Dec} (h1 : s'.sources = s.sources) (h2 : s'.log = s.log) : Give P s s' :=
  ⟨fun o => by unfold OwnId; rw [h1]; exact o, by rw [h1]; exact fun _ h => h, by rw [h2]; simp, by rw [h2]⟩

theorem Give.pre' {P : Nat → Prop} {s0 s s' : Dec} (h : Give P s0 s') (h1 : s0.sources = s.sources) (h2 : s0.log = s.log) :
    Give P s s' :=
  (Give.same (s := s) (s' := s0) h1 h2).trans h

theorem Give.post {P : Nat → Prop} {s s1 s' : Dec} (h : Give P s s1) (h1 : s'.sources = s1.sources) (h2 : s'.log = s1.log) :
    Give P s s' :=
  h.trans (Give.same h1 h2)

theorem give_callback {P : Nat → Prop} (s : Dec) (src : DSource) (h : OwnId s → src.id ∈ s.sources.keys ∨ P src.id) :
    Give P s (s.callback src) := by
  refine ⟨fun h => h, fun _ h => h, fun o ev hev => ?_, List.prefix_append _ _⟩
  simp [Dec.callback] at hev
  subst hev
  exact h o

theorem callbackOrdered_give {P : Nat → Prop} {s s' : Dec} {id : Nat} (h : s.callbackOrdered id = .ok s') : Give P s s' := by
  unfold Dec.callbackOrdered at h
  split at h
  · cases h
  · next src hs =>
    cases h
    have hm := mem_of_get? hs
    exact give_callback _ _ fun o => .inl (by rw [o _ hm]; exact List.mem_map.2 ⟨_, hm, rfl⟩)

theorem flushLoop_give {P : Nat → Prop} (dbg : Bool) (l : List Nat) (s s' : Dec) (h : flushLoop dbg l s = .ok s') : Give P s s' := by
  induction l generalizing s with
  | nil => cases h; exact Give.refl _ _
  | cons id rest ih =>
    unfold flushLoop at h
    rw [bind_ok_iff] at h
    obtain ⟨_, _, h⟩ := h
    rw [bind_ok_iff] at h
    obtain ⟨s1, h1, h⟩ := h
    have e1 : Give P _ _ := callbackOrdered_give h1
    have e2 : Give P s { s1 with ordered := s1.ordered.erase id, firstMissing := (s1.firstMissing + 1) % 2 ^ 32 } :=
      e1.post rfl rfl
    cases rest with
    | nil => cases h; exact e2
    | cons nxt t =>
      simp only at h
      split at h
      · cases h; exact e2
      · exact e2.trans (ih _ h)

theorem flush_give {P : Nat → Prop} {dbg : Bool} {s s' : Dec} (h : s.flush dbg = .ok s') : Give P s s' := by
  unfold Dec.flush at h
  split at h
  · exact flushLoop_give _ _ _ _ h
  · cases h; exact Give.refl _ _

theorem removeFromAll_same (gf : GF w) (dbg : Bool) (src : DSource) (l : List Nat) (s s' : Dec)
    (h : removeFromAll gf dbg src l s = .ok s') : s'.sources = s.sources ∧ s'.log = s.log := by
  induction l generalizing s with
  | nil => cases h; exact ⟨rfl, rfl⟩
  | cons rid t ih =>
    unfold removeFromAll at h
    split at h
    · cases h
    · rw [bind_ok_iff] at h
      obtain ⟨r', _, h⟩ := h
      have := ih _ h
      exact this

theorem addSourceHead_give {gf : GF w} {dbg : Bool} {src : DSource} {s s' : Dec}
    (h : addSourceHead gf dbg src s = .ok s') : Give (· = src.id) s s' := by
  unfold addSourceHead at h
  rw [bind_ok_iff] at h
  obtain ⟨s1, h1, h⟩ := h
  have e1 : Give (· = src.id) s s1 := by
    unfold Dec.giveNew at h1
    split at h1
    · cases h1; exact give_callback _ _ fun _ => .inr rfl
    · split at h1
      · have g0 : Give (· = src.id) s (s.callback src) := give_callback s src fun _ => .inr rfl
        exact g0.trans ((flush_give h1).pre' rfl rfl)
      · cases h1; exact Give.refl _ _
  split at h
  · cases h; exact e1
  · rw [bind_ok_iff] at h
    obtain ⟨s2, h2, h⟩ := h
    cases h
    have e2 := removeFromAll_same _ _ _ _ _ _ h2
    exact e1.post e2.1 e2.2

theorem emplace_give {P : Nat → Prop} (s : Dec) (src : DSource) : Give P s { s with sources := s.sources.emplace src.id src } := by
  refine ⟨fun o p hp => ?_, fun x hx => (mem_keys_emplace _ _ _ _).2 (.inr hx), by simp, List.prefix_refl _⟩
  rcases mem_emplace' hp with hp | rfl
  · exact o p hp
  · rfl

theorem addSourceTail_give {P : Nat → Prop} {dbg : Bool} {src : DSource} {s s' : Dec} (h : addSourceTail dbg src s = .ok s') :
    Give P s s' ∧ src.id ∈ s'.sources.keys := by
  unfold addSourceTail at h
  rw [bind_ok_iff] at h
  obtain ⟨_, _, h⟩ := h
  simp only at h
  split at h <;> (cases h; exact ⟨(emplace_give s src).post rfl rfl, (mem_keys_emplace _ _ _ _).2 (.inl rfl)⟩)

theorem add_scan_give {P : Nat → Prop} (gf : GF w) (dbg : Bool) (fuel : Nat) :
    (∀ src s s', addSource gf dbg fuel src s = .ok s' → Give P s s') ∧
    (∀ k s s', scanMissing gf dbg fuel k s = .ok s' → Give P s s') := by
  induction fuel generalizing P with
  | zero =>
    constructor
    · intro src s s' h; unfold addSource at h; cases h
    · intro k s s' h
      cases k with
      | none => unfold scanMissing at h; cases h; exact Give.refl _ _
      | some k => unfold scanMissing at h; cases h
  | succ fuel ih =>
    constructor
    · intro src s s' h
      unfold addSource at h
      rw [bind_ok_iff] at h
      obtain ⟨s1, h1, h⟩ := h
      rw [bind_ok_iff] at h
      obtain ⟨s2, h2, h⟩ := h
      obtain ⟨t1, t2⟩ := addSourceTail_give (P := (· = src.id)) h
      refine (((addSourceHead_give h1).trans (ih.2 _ _ _ h2)).trans t1).weak fun x hx => .inl ?_
      rw [hx]; exact t2
    · intro k s s' h
      cases k with
      | none => unfold scanMissing at h; cases h; exact Give.refl _ _
      | some k =>
        unfold scanMissing at h
        split at h
        · cases h
        · split at h
          · cases h
          · split at h
            · rw [bind_ok_iff] at h
              obtain ⟨_, _, h⟩ := h
              rw [bind_ok_iff] at h
              obtain ⟨_, _, h⟩ := h
              rw [bind_ok_iff] at h
              obtain ⟨src, _, h⟩ := h
              simp only at h
              rw [bind_ok_iff] at h
              obtain ⟨s1, h1, h⟩ := h
              exact Give.trans (Give.pre' (s := s) (ih.1 _ _ _ h1) rfl rfl) (ih.2 _ _ _ h)
            · exact ih.2 _ _ _ h
        · exact ih.2 _ _ _ h

theorem giveOutdated_give {P : Nat → Prop} (l : List Nat) (s s' : Dec) (h : giveOutdated l s = .ok s') : Give P s s' := by
  induction l generalizing s with
  | nil => cases h; exact Give.refl _ _
  | cons k t ih =>
    unfold giveOutdated at h
    rw [bind_ok_iff] at h
    obtain ⟨s1, h1, h⟩ := h
    exact (callbackOrdered_give h1).trans ((ih _ h).pre' rfl rfl)

/-- Only the sources before `id` are forgotten. -/
theorem dropOutdated_give {dbg : Bool} {id : Nat} {s s' : Dec} (h : s.dropOutdated dbg id = .ok s') (o : OwnId s) :
    OwnId s' ∧ (∀ x ∈ s.sources.keys, id ≤ x → x ∈ s'.sources.keys) ∧
    (∀ ev ∈ s'.log.drop s.log.length, ev.id ∈ s'.sources.keys ∨ (ev.id < id ∧ ev.id ∈ s.sources.keys)) ∧ s.log <+: s'.log := by
  have hp := (dropOutdated_ext h).log
  unfold Dec.dropOutdated at h
  simp only at h
  rw [bind_ok_iff] at h
  obtain ⟨s1, h1, h⟩ := h
  rw [bind_ok_iff] at h
  obtain ⟨s2, h2, h⟩ := h
  cases h
  obtain ⟨a, b, _⟩ := dropRepairs_src _ _ _ _ _ h1
  simp only at a b
  have g : Give (fun _ => False) s s2 := by
    have g0 : Give (fun _ => False) s s1 := Give.same a b
    refine g0.trans ?_
    unfold Dec.giveAllOutdated at h2
    split at h2
    · rw [bind_ok_iff] at h2
      obtain ⟨s3, h3, h2⟩ := h2
      exact (giveOutdated_give _ _ _ h3).trans ((flush_give h2).pre' rfl rfl)
    · cases h2; exact Give.refl _ _
  refine ⟨fun p hp => g.own o p (List.mem_filter.1 hp).1, fun x hx hle => (mem_keys_eraseBelow _ _ _).2 ⟨g.keys x hx, hle⟩,
    fun ev hev => ?_, hp⟩
  rcases g.new o ev hev with hk | hk
  · by_cases hlt : ev.id < id
    · refine .inr ⟨hlt, ?_⟩
      rw [(giveAllOutdated_C h2).sources, a] at hk; exact hk
    · exact .inl ((mem_keys_eraseBelow _ _ _).2 ⟨hk, Nat.le_of_not_lt hlt⟩)
  · exact hk.elim

theorem insertDecoded_give {P : Nat → Prop} {dbg : Bool} {src : DSource} {s s' : Dec} (h : s.insertDecoded dbg src = .ok s') :
    Give P s s' := by
  unfold Dec.insertDecoded at h
  rw [bind_ok_iff] at h
  obtain ⟨_, _, h⟩ := h
  simp only at h
  split at h
  · cases h
  · next src' hg =>
    refine (emplace_give s src).trans ?_
    have hm := mem_of_get? hg
    have hin : OwnId ({ s with sources := s.sources.emplace src.id src } : Dec) →
        src'.id ∈ ({ s with sources := s.sources.emplace src.id src } : Dec).sources.keys ∨ P src'.id :=
      fun o => .inl (by rw [o _ hm]; exact List.mem_map.2 ⟨_, hm, rfl⟩)
    unfold Dec.giveDecoded at h
    split at h
    · cases h; exact give_callback _ _ hin
    · split at h
      · exact (give_callback _ _ hin).trans ((flush_give h).pre' rfl rfl)
      · cases h; exact Give.same rfl rfl

theorem decodeLoop_give {P : Nat → Prop} (gf : GF w) (dbg : Bool) (inv : Mat w) (reps : List DRepair) (l : List Nat) (col : Nat)
    (s s' : Dec) (h : decodeLoop gf dbg inv reps col l s = .ok s') : Give P s s' := by
  induction l generalizing col s with
  | nil => unfold decodeLoop at h; cases h; exact Give.refl _ _
  | cons x t ih =>
    unfold decodeLoop at h
    rw [bind_ok_iff] at h
    obtain ⟨_, _, h⟩ := h
    rw [bind_ok_iff] at h
    obtain ⟨s1, h1, h⟩ := h
    exact (insertDecoded_give h1).trans (ih _ _ h)

theorem fullDecode_give {P : Nat → Prop} {gf : GF w} {dbg : Bool} {s s' : Dec} (h : s.fullDecode gf dbg = .ok s') :
    Give P s s' := by
  unfold Dec.fullDecode at h
  split at h
  · cases h; exact Give.refl _ _
  split at h
  · cases h; exact Give.refl _ _
  rw [bind_ok_iff] at h
  obtain ⟨_, _, h⟩ := h
  rw [bind_ok_iff] at h
  obtain ⟨_, _, h⟩ := h
  rw [bind_ok_iff] at h
  obtain ⟨_, _, h⟩ := h
  split at h
  · split at h
    · cases h
    · rw [bind_ok_iff] at h
      obtain ⟨_, _, h⟩ := h
      cases h
      exact Give.same rfl rfl
  · simp only at h
    rw [bind_ok_iff] at h
    obtain ⟨s1, h1, h⟩ := h
    cases h
    exact (decodeLoop_give _ _ _ _ _ _ _ _ h1).post rfl rfl

theorem onSource_give {P : Nat → Prop} {gf : GF w} {dbg : Bool} {s s' : Dec} {src : DSource} (h : s.onSource gf dbg src = .ok s') :
    Give P s s' := by
  unfold Dec.onSource at h
  split at h
  · cases h; exact Give.refl _ _
  · split at h
    · cases h; exact Give.refl _ _
    · rw [bind_ok_iff] at h
      obtain ⟨s1, e1, h⟩ := h
      exact ((add_scan_give gf dbg _).1 _ _ _ e1).trans (fullDecode_give h)

/-- A repair is ignored, or makes the decoder forget what is before its first source. -/
theorem onRepair_give {gf : GF w} {dbg : Bool} {s s' : Dec} {r : DRepair} (h : s.onRepair gf dbg r = .ok s') (o : OwnId s) :
    ∃ f, r.ids.head? = some f ∧ OwnId s' ∧ (∀ x ∈ s.sources.keys, x ∈ s'.sources.keys ∨ x < f) ∧
    (∀ ev ∈ s'.log.drop s.log.length, ev.id ∈ s'.sources.keys ∨ (ev.id < f ∧ ev.id ∈ s.sources.keys)) ∧ s.log <+: s'.log := by
  unfold Dec.onRepair at h
  rw [bind_ok_iff] at h
  obtain ⟨_, _, h⟩ := h
  split at h
  · next lastIn firstIn e1 e2 =>
    refine ⟨firstIn, e2, ?_⟩
    split at h
    · cases h; exact ⟨o, fun x hx => .inl hx, by simp, List.prefix_refl _⟩
    split at h
    · cases h; exact ⟨o, fun x hx => .inl hx, by simp, List.prefix_refl _⟩
    rw [bind_ok_iff] at h
    obtain ⟨s1, h1, h⟩ := h
    obtain ⟨d1, d2, d3, d4⟩ := dropOutdated_give h1 o
    have fin : Give (fun _ => False) s1 s' → OwnId s' ∧ (∀ x ∈ s.sources.keys, x ∈ s'.sources.keys ∨ x < firstIn) ∧
        (∀ ev ∈ s'.log.drop s.log.length, ev.id ∈ s'.sources.keys ∨ (ev.id < firstIn ∧ ev.id ∈ s.sources.keys)) ∧ s.log <+: s'.log := by
      intro g
      refine ⟨g.own d1, fun x hx => ?_, fun ev hev => ?_, d4.trans g.pre⟩
      · by_cases hlt : x < firstIn
        · exact .inr hlt
        · exact .inl (g.keys x (d2 x hx (Nat.le_of_not_lt hlt)))
      · rw [drop_split d4 g.pre, List.mem_append] at hev
        rcases hev with hev | hev
        · exact (d3 ev hev).imp (g.keys _) id
        · exact .inl ((g.new d1 ev hev).elim id False.elim)
    refine fin ?_
    split at h
    · cases h; exact Give.same rfl rfl
    rw [bind_ok_iff] at h
    obtain ⟨_, _, h⟩ := h
    rw [bind_ok_iff] at h
    obtain ⟨⟨r', m⟩, _, h⟩ := h
    simp only at h
    rw [bind_ok_iff] at h
    obtain ⟨_, _, h⟩ := h
    split at h
    · rw [bind_ok_iff] at h
      obtain ⟨src, _, h⟩ := h
      exact ((add_scan_give gf dbg _).1 _ _ _ h).pre' rfl rfl
    · exact (fullDecode_give h).pre' rfl rfl
  · cases h

/-! ## The sources a decoder refers to -/

/-- The decoder only refers to sources of `N`. -/
structure Named (N : Nat → Prop) (s : Dec) : Prop where
  src : ∀ x ∈ s.sources.keys, N x
  mis : ∀ x ∈ s.missing.keys, N x
  rep : ∀ p ∈ s.repairs, ∀ x ∈ p.2.ids, N x

variable {N : Nat → Prop}

theorem Named.mono {M : Nat → Prop} {s : Dec} (h : Named N s) (hm : ∀ x, N x → M x) : Named M s :=
  ⟨fun x hx => hm x (h.src x hx), fun x hx => hm x (h.mis x hx), fun p hp x hx => hm x (h.rep p hp x hx)⟩

theorem Named.same {s s' : Dec} (h : Named N s) (c : SameC s s') : Named N s' :=
  ⟨by rw [c.sources]; exact h.src, by rw [c.missing]; exact h.mis, by rw [c.repairs]; exact h.rep⟩

theorem removeFromAll_named (gf : GF w) (dbg : Bool) (src : DSource) (links : List Nat) (s s' : Dec)
    (h : removeFromAll gf dbg src links s = .ok s') (hl : Named N s) : Named N s' := by
  induction links generalizing s with
  | nil => cases h; exact hl
  | cons rid t ih =>
    unfold removeFromAll at h
    split at h
    · cases h
    · next r hr =>
      rw [bind_ok_iff] at h
      obtain ⟨r', h1, h⟩ := h
      have e := removeFromRepair_ids h1
      have hm := mem_of_get? hr
      refine ih _ h ⟨hl.src, hl.mis, ?_⟩
      intro p hp x hx
      rcases mem_modify_or (show p ∈ s.repairs.modify rid (fun _ => r') from hp) with hp | ⟨v, _, rfl⟩
      · exact hl.rep p hp x hx
      · rw [e] at hx
        exact hl.rep _ hm x (List.mem_of_mem_erase hx)

theorem addSourceHead_named {gf : GF w} {dbg : Bool} {src : DSource} {s s' : Dec}
    (h : addSourceHead gf dbg src s = .ok s') (hl : Named N s) : Named N s' := by
  unfold addSourceHead at h
  rw [bind_ok_iff] at h
  obtain ⟨s1, h1, h⟩ := h
  have l1 := hl.same (giveNew_C h1)
  split at h
  · cases h; exact l1
  · rw [bind_ok_iff] at h
    obtain ⟨s2, h2, h⟩ := h
    cases h
    have l2 := removeFromAll_named _ _ _ _ _ _ h2 l1
    exact ⟨l2.src, fun x hx => l2.mis x ((mem_keys_erase _ _ _).1 hx).1, l2.rep⟩

theorem addSourceTail_named {dbg : Bool} {src : DSource} {s s' : Dec}
    (h : addSourceTail dbg src s = .ok s') (hl : Named N s) (hs : N src.id) : Named N s' := by
  unfold addSourceTail at h
  rw [bind_ok_iff] at h
  obtain ⟨_, _, h⟩ := h
  simp only at h
  have hsrc : ∀ x ∈ (s.sources.emplace src.id src).keys, N x := by
    intro x hx
    rcases (mem_keys_emplace _ _ _ _).1 hx with hx | hx
    · rw [hx]; exact hs
    · exact hl.src x hx
  split at h <;> (cases h; exact ⟨hsrc, hl.mis, hl.rep⟩)

theorem add_scan_named (gf : GF w) (dbg : Bool) (fuel : Nat) :
    (∀ src s s', addSource gf dbg fuel src s = .ok s' → N src.id → Named N s → Named N s') ∧
    (∀ k s s', scanMissing gf dbg fuel k s = .ok s' → Named N s → Named N s') := by
  induction fuel with
  | zero =>
    constructor
    · intro src s s' h; unfold addSource at h; cases h
    · intro k s s' h hl
      cases k with
      | none => unfold scanMissing at h; cases h; exact hl
      | some k => unfold scanMissing at h; cases h
  | succ fuel ih =>
    constructor
    · intro src s s' h hs hl
      unfold addSource at h
      rw [bind_ok_iff] at h
      obtain ⟨s1, h1, h⟩ := h
      rw [bind_ok_iff] at h
      obtain ⟨s2, h2, h⟩ := h
      exact addSourceTail_named h (ih.2 _ _ _ h2 (addSourceHead_named h1 hl)) hs
    · intro k s s' h hl
      cases k with
      | none => unfold scanMissing at h; cases h; exact hl
      | some k =>
        unfold scanMissing at h
        split at h
        · cases h
        · split at h
          · cases h
          · next r hr =>
            split at h
            · rw [bind_ok_iff] at h
              obtain ⟨_, _, h⟩ := h
              rw [bind_ok_iff] at h
              obtain ⟨_, _, h⟩ := h
              rw [bind_ok_iff] at h
              obtain ⟨src, hsrc, h⟩ := h
              simp only at h
              rw [bind_ok_iff] at h
              obtain ⟨s1, h1, h⟩ := h
              refine ih.2 _ _ _ h (ih.1 _ _ _ h1 (hl.rep _ (mem_of_get? hr) _ (createSource_id hsrc)) ?_)
              exact ⟨hl.src, fun x hx => hl.mis x ((mem_keys_erase _ _ _).1 hx).1, fun p hp => hl.rep p ((mem_erase _ _ _).1 hp).1⟩
            · exact ih.2 _ _ _ h hl
        · exact ih.2 _ _ _ h hl

theorem insertDecoded_named {dbg : Bool} {src : DSource} {s s' : Dec}
    (h : s.insertDecoded dbg src = .ok s') (hl : Named N s) (hs : N src.id) : Named N s' := by
  unfold Dec.insertDecoded at h
  rw [bind_ok_iff] at h
  obtain ⟨_, _, h⟩ := h
  simp only at h
  split at h
  · cases h
  · refine Named.same ?_ (giveDecoded_C h)
    refine ⟨fun x hx => ?_, hl.mis, hl.rep⟩
    rcases (mem_keys_emplace _ _ _ _).1 hx with hx | hx
    · rw [hx]; exact hs
    · exact hl.src x hx

theorem decodeLoop_named (gf : GF w) (dbg : Bool) (inv : Mat w) (reps : List DRepair) (ids : List Nat)
    (col : Nat) (s s' : Dec) (h : decodeLoop gf dbg inv reps col ids s = .ok s') (hl : Named N s) (hi : ∀ x ∈ ids, N x) :
    Named N s' := by
  induction ids generalizing col s with
  | nil => unfold decodeLoop at h; cases h; exact hl
  | cons x t ih =>
    unfold decodeLoop at h
    rw [bind_ok_iff] at h
    obtain ⟨_, _, h⟩ := h
    rw [bind_ok_iff] at h
    obtain ⟨s1, h1, h⟩ := h
    exact ih _ _ h (insertDecoded_named h1 hl (hi x List.mem_cons_self)) fun y hy => hi y (List.mem_cons_of_mem _ hy)

theorem fullDecode_named {gf : GF w} {dbg : Bool} {s s' : Dec} (h : s.fullDecode gf dbg = .ok s') (hl : Named N s) : Named N s' := by
  unfold Dec.fullDecode at h
  split at h
  · cases h; exact hl
  split at h
  · cases h; exact hl
  rw [bind_ok_iff] at h
  obtain ⟨_, _, h⟩ := h
  rw [bind_ok_iff] at h
  obtain ⟨_, _, h⟩ := h
  rw [bind_ok_iff] at h
  obtain ⟨_, _, h⟩ := h
  split at h
  · split at h
    · cases h
    · next rid r hr =>
      rw [bind_ok_iff] at h
      obtain ⟨_, _, h⟩ := h
      cases h
      refine ⟨hl.src, fun x hx => ?_, fun p hp => hl.rep p ((mem_erase _ _ _).1 hp).1⟩
      rcases unlinkOrCreate_keys _ _ _ _ hx with hx | hx
      · exact hl.rep _ (List.mem_of_getElem? hr) x hx
      · exact hl.mis x hx
  · simp only at h
    rw [bind_ok_iff] at h
    obtain ⟨s1, h1, h⟩ := h
    cases h
    have l1 := decodeLoop_named _ _ _ _ _ _ _ _ h1 hl hl.mis
    exact ⟨l1.src, fun x hx => (by cases hx), fun p hp => (by cases hp)⟩

theorem dropOutdated_named {dbg : Bool} {id : Nat} {s s' : Dec} (h : s.dropOutdated dbg id = .ok s') (hr : Named N s) :
    Named N s' := by
  unfold Dec.dropOutdated at h
  simp only at h
  rw [bind_ok_iff] at h
  obtain ⟨s1, h1, h⟩ := h
  rw [bind_ok_iff] at h
  obtain ⟨s2, h2, h⟩ := h
  cases h
  obtain ⟨d1, d2, d3, d4, d5⟩ := dropRepairs_inv _ _ _ _ _ h1
  have c := giveAllOutdated_C h2
  refine ⟨fun x hx => hr.src x ?_, fun x hx => hr.mis x ?_, fun p hp => ?_⟩
  · have := keys_eraseBelow _ _ _ hx
    rw [c.sources, d2] at this; exact this
  · have := keys_eraseBelow _ _ _ hx
    rw [c.missing, d3] at this; exact this
  · rw [c.repairs] at hp
    exact hr.rep p (d4 p hp).1

theorem onSource_named {gf : GF w} {dbg : Bool} {s s' : Dec} {src : DSource}
    (h : s.onSource gf dbg src = .ok s') (hn : N src.id) (hl : Named N s) : Named N s' := by
  unfold Dec.onSource at h
  split at h
  · cases h; exact hl
  · split at h
    · cases h; exact hl
    · rw [bind_ok_iff] at h
      obtain ⟨s1, e1, h⟩ := h
      exact fullDecode_named h ((add_scan_named gf dbg _).1 _ _ _ e1 hn hl)

theorem linkFold_named {gf : GF w} {dbg : Bool} {sources : OMap DSource} (ids : List Nat) (st st' : DRepair × OMap (List Nat))
    (h : ids.foldlM (linkStep gf dbg sources) st = .ok st') (h1 : ∀ x ∈ ids, N x) (h2 : ∀ x ∈ st.1.ids, N x)
    (h4 : ∀ x ∈ st.2.keys, N x) :
    (∀ x ∈ st'.1.ids, N x) ∧ (∀ x ∈ st'.2.keys, N x) := by
  induction ids generalizing st with
  | nil => cases h; exact ⟨h2, h4⟩
  | cons y t ih =>
    rw [List.foldlM_cons, bind_ok_iff] at h
    obtain ⟨st1, k1, h⟩ := h
    obtain ⟨r, m⟩ := st
    unfold linkStep at k1
    simp only at k1
    split at k1
    · rw [bind_ok_iff] at k1
      obtain ⟨r1, k2, k1⟩ := k1
      cases k1
      refine ih _ h (fun x hx => h1 x (List.mem_cons_of_mem _ hx)) ?_ h4
      intro x hx
      simp only [removeData_ids k2] at hx
      exact h2 x (List.mem_of_mem_erase hx)
    · split at k1
      · cases k1
        refine ih _ h (fun x hx => h1 x (List.mem_cons_of_mem _ hx)) h2 ?_
        intro x hx
        rw [keys_modify'] at hx
        exact h4 x hx
      · cases k1
        refine ih _ h (fun x hx => h1 x (List.mem_cons_of_mem _ hx)) h2 ?_
        intro x hx
        rcases (mem_keys_emplace _ _ _ _).1 hx with hx | hx
        · rw [hx]; exact h1 y List.mem_cons_self
        · exact h4 x hx

theorem onRepair_named {gf : GF w} {dbg : Bool} {s s' : Dec} {r : DRepair} (h : s.onRepair gf dbg r = .ok s')
    (hn : ∀ x ∈ r.ids, N x) (hl : Named N s) : Named N s' := by
  unfold Dec.onRepair at h
  rw [bind_ok_iff] at h
  obtain ⟨_, _, h⟩ := h
  split at h
  · split at h
    · cases h; exact hl
    split at h
    · cases h; exact hl
    rw [bind_ok_iff] at h
    obtain ⟨s1, h1, h⟩ := h
    have l1 := dropOutdated_named h1 hl
    split at h
    · cases h; exact ⟨l1.src, l1.mis, l1.rep⟩
    rw [bind_ok_iff] at h
    obtain ⟨_, _, h⟩ := h
    rw [bind_ok_iff] at h
    obtain ⟨⟨r', m⟩, hf, h⟩ := h
    simp only at h
    rw [bind_ok_iff] at h
    obtain ⟨_, _, h⟩ := h
    obtain ⟨g1, g3⟩ := linkFold_named _ _ _ hf (fun x hx => hn x (List.mem_reverse.1 hx)) hn l1.mis
    have l2 : Named N { s1 with repairs := s1.repairs.emplace r'.id r', missing := m } := by
      refine ⟨l1.src, g3, ?_⟩
      intro p hp
      rcases mem_emplace' hp with hp | rfl
      · exact l1.rep p hp
      · exact g1
    split at h
    · rw [bind_ok_iff] at h
      obtain ⟨src, hsrc, h⟩ := h
      refine (add_scan_named gf dbg _).1 _ _ _ h (g1 _ (createSource_id hsrc)) ?_
      exact ⟨l2.src, fun x hx => l2.mis x ((mem_keys_erase _ _ _).1 hx).1, fun p hp => l2.rep p ((mem_erase _ _ _).1 hp).1⟩
    · exact fullDecode_named h l2
  · cases h

end Netcode
