import Verif.Proofs.DecLow
import Verif.Proofs.DecTwin

/-!
# The decoder with ordering follows the one without

`Ord F L d u`: `d` orders, `u` does not, both got the same packets.  `F` is the log of `u` at a later time, without
duplicates; `L` is the start of the window.
-/

set_option linter.unusedSectionVars false

namespace Netcode

open OMap

variable {w : Nat}

/-- Each source occurs once, and no identifier wraps around. -/
structure LogFine (F : List Event) : Prop where
  nodup : (F.map (·.id)).Nodup
  bound : ∀ e ∈ F, e.id + 1 < 2 ^ 32

structure Ord (L : Nat) (d u : Dec) : Prop where
  like : Like d u
  mode : d.inOrder = true
  logSorted : Sorted d.handed
  logLt : ∀ x ∈ d.handed, x < d.firstMissing
  logSub : ∀ ev ∈ d.log, ∃ e ∈ u.log, e.id = ev.id ∧ e.data = ev.data
  ordSorted : Sorted d.ordered
  ordGe : ∀ x ∈ d.ordered, d.firstMissing ≤ x
  ordSrc : ∀ x ∈ d.ordered, x ∈ d.sources.keys
  src : ∀ x v, d.sources.get? x = some v → v.id = x ∧ ∃ e ∈ u.log, e.id = x ∧ e.data = v.sym
  lo : L ≤ d.firstMissing
  full : ∀ y, L ≤ y → y < d.firstMissing → y ∈ u.handed

section
variable {F : List Event} {L : Nat} {d u : Dec}

theorem Ord.src_handed (h : Ord L d u) {x : Nat} (hx : x ∈ d.sources.keys) : x ∈ u.handed := by
  obtain ⟨v, hv⟩ := (get?_isSome_iff _ _).2 hx
  obtain ⟨_, e, he, rfl, _⟩ := h.src x v hv
  exact List.mem_map_of_mem he

theorem handed_bound (hF : LogFine F) (hp : u.log <+: F) {x : Nat} (hx : x ∈ u.handed) : x + 1 < 2 ^ 32 := by
  obtain ⟨e, he, rfl⟩ := List.mem_map.1 hx
  exact hF.bound e (hp.subset he)

/-- A source about to be handed over by `u` is new. -/
theorem new_not_handed (hF : LogFine F) {src : DSource} (hp : (u.callback src).log <+: F) : src.id ∉ u.handed := by
  have h1 : ((u.callback src).log.map (·.id)).Nodup := by
    obtain ⟨t, ht⟩ := hp
    have := hF.nodup
    rw [← ht, List.map_append] at this
    exact (List.nodup_append.1 this).1
  simp only [Dec.callback, List.map_append, List.map_cons, List.map_nil] at h1
  intro hc
  exact (List.nodup_append.1 h1).2.2 _ hc _ (List.mem_singleton.2 rfl) rfl

/-- `u` goes on while `d` does nothing. -/
theorem Ord.grow (h : Ord L d u) {u' : Dec} (c : Like d u') (hp : u.log <+: u'.log) : Ord L d u' :=
  ⟨c, h.mode, h.logSorted, h.logLt, fun ev hev => by
    obtain ⟨e, he, h1⟩ := h.logSub ev hev
    exact ⟨e, hp.subset he, h1⟩, h.ordSorted, h.ordGe, h.ordSrc, fun x v hv => by
    obtain ⟨h1, e, he, h2⟩ := h.src x v hv
    exact ⟨h1, e, hp.subset he, h2⟩, h.lo, fun y h1 h2 => handed_mono hp (h.full y h1 h2)⟩

/-- Changes of the common part, the sources excepted. -/
theorem Ord.core (h : Ord L d u) {d' u' : Dec} (c : Like d' u') (h1 : d'.inOrder = d.inOrder) (h2 : d'.log = d.log)
    (h3 : d'.firstMissing = d.firstMissing) (h4 : d'.ordered = d.ordered) (h5 : d'.sources = d.sources)
    (h6 : u'.log = u.log) : Ord L d' u' := by
  have e1 : d'.handed = d.handed := by unfold Dec.handed; rw [h2]
  have e2 : u'.handed = u.handed := by unfold Dec.handed; rw [h6]
  exact ⟨c, h1.trans h.mode, by rw [e1]; exact h.logSorted, by rw [e1, h3]; exact h.logLt, by rw [h2, h6]; exact h.logSub,
    by rw [h4]; exact h.ordSorted, by rw [h4, h3]; exact h.ordGe, by rw [h4, h5]; exact h.ordSrc,
    by rw [h5, h6]; exact h.src, by rw [h3]; exact h.lo, by rw [h3, e2]; exact h.full⟩

theorem get?_emplace_cases {V : Type} (m : OMap V) (k : Nat) (v z : V) (x : Nat) (h : (m.emplace k v).get? x = some z) :
    m.get? x = some z ∨ (x = k ∧ z = v) := by
  induction m with
  | nil =>
    simp only [OMap.emplace, get?_cons] at h
    split at h
    · next hk => cases h; exact .inr ⟨by simpa using hk.symm, rfl⟩
    · cases h
  | cons p t ih =>
    obtain ⟨a, b⟩ := p
    unfold OMap.emplace at h
    split at h
    · rw [get?_cons] at h
      split at h
      · next hk => cases h; exact .inr ⟨by simpa using hk.symm, rfl⟩
      · exact .inl h
    · split at h
      · exact .inl h
      · rw [get?_cons] at h ⊢
        split at h
        · next hk => rw [if_pos hk]; exact .inl h
        · next hk => rw [if_neg hk]; exact ih h

/-! ## Flushing -/

theorem flushLoop_ord (dbg : Bool) (hF : LogFine F) (hp : u.log <+: F) (l : List Nat) (d : Dec) (h : Ord L d u)
    (hl : d.ordered = l) (hne : ∃ t, l = d.firstMissing :: t) : ∃ d', flushLoop dbg l d = .ok d' ∧ Ord L d' u := by
  induction l generalizing d with
  | nil => obtain ⟨t, ht⟩ := hne; cases ht
  | cons id rest ih =>
    obtain ⟨t, ht⟩ := hne
    obtain ⟨rfl, rfl⟩ : id = d.firstMissing ∧ rest = t := by simpa using ht
    have hmem : d.firstMissing ∈ d.ordered := by rw [hl]; simp
    have hk := h.ordSrc _ hmem
    obtain ⟨v, hv⟩ := (get?_isSome_iff _ _).2 hk
    obtain ⟨hid, e, he, he1, he2⟩ := h.src _ v hv
    have hmod : (d.firstMissing + 1) % 2 ^ 32 = d.firstMissing + 1 :=
      Nat.mod_eq_of_lt (handed_bound hF hp (h.src_handed hk))
    have e1 : d.callbackOrdered d.firstMissing = .ok (d.callback v) := by simp [Dec.callbackOrdered, hv]
    rw [flushLoop_cons dbg _ _ d _ rfl e1]
    generalize hs1 : ({ d.callback v with
        ordered := (d.callback v).ordered.erase d.firstMissing,
        firstMissing := ((d.callback v).firstMissing + 1) % 2 ^ 32 } : Dec) = d1
    have f_fm : d1.firstMissing = d.firstMissing + 1 := by rw [← hs1]; exact hmod
    have f_ord : d1.ordered = rest := by rw [← hs1]; simp [Dec.callback, hl]
    have f_log2 : d1.log = d.log ++ [⟨v.id, v.sym, d.sources.keys⟩] := by rw [← hs1]; rfl
    have f_log : d1.handed = d.handed ++ [d.firstMissing] := by unfold Dec.handed; rw [f_log2, ← hid]; simp
    have f_src : d1.sources = d.sources := by rw [← hs1]; rfl
    have f_like : Like d1 u := by
      rw [← hs1]; exact ⟨⟨h.like.same.1, h.like.same.2, h.like.same.3, h.like.same.4, h.like.same.5, h.like.same.6, h.like.same.7⟩,
        h.like.mode⟩
    have hsort := h.ordSorted
    rw [hl, Sorted, List.pairwise_cons] at hsort
    have h1 : Ord L d1 u := by
      refine ⟨f_like, by rw [← hs1]; exact h.mode, ?_, ?_, ?_, ?_, ?_, ?_, ?_, ?_, ?_⟩
      · rw [f_log]; exact sorted_append_singleton h.logSorted h.logLt
      · rw [f_log, f_fm]
        intro x hx
        rcases List.mem_append.1 hx with hx | hx
        · exact Nat.lt_succ_of_lt (h.logLt x hx)
        · rw [List.mem_singleton.1 hx]; exact Nat.lt_succ_self _
      · rw [f_log2]
        intro ev hev
        rcases List.mem_append.1 hev with hev | hev
        · exact h.logSub ev hev
        · rw [List.mem_singleton.1 hev]; exact ⟨e, he, he1.trans hid.symm, he2⟩
      · rw [f_ord]; exact hsort.2
      · rw [f_ord, f_fm]; exact fun x hx => hsort.1 x hx
      · rw [f_ord, f_src]; exact fun x hx => h.ordSrc x (by rw [hl]; simp [hx])
      · rw [f_src]; exact h.src
      · rw [f_fm]; exact Nat.le_succ_of_le h.lo
      · rw [f_fm]
        intro y hy1 hy2
        rcases Nat.lt_or_eq_of_le (Nat.lt_succ_iff.1 hy2) with hy | hy
        · exact h.full y hy1 hy
        · rw [hy]; exact h.src_handed hk
    unfold flushNext
    match hrest : rest with
    | [] => exact ⟨d1, rfl, h1⟩
    | nxt :: t =>
      simp only
      split
      · exact ⟨d1, rfl, h1⟩
      · next hgt =>
        refine ih d1 h1 f_ord ⟨t, ?_⟩
        have := h1.ordGe nxt (by rw [f_ord]; simp)
        have : nxt = d1.firstMissing := by omega
        rw [this]

theorem flush_ord (dbg : Bool) (hF : LogFine F) (hp : u.log <+: F) (d : Dec) (h : Ord L d u) :
    ∃ d', d.flush dbg = .ok d' ∧ Ord L d' u := by
  unfold Dec.flush
  split
  · rename_i hmem
    have hd : d.ordered.dropWhile (fun k => decide (k < d.firstMissing)) = d.ordered := by
      cases hl : d.ordered with
      | nil => rfl
      | cons a t =>
        have := h.ordGe a (by rw [hl]; simp)
        rw [List.dropWhile_cons, if_neg]
        simpa using this
    rw [hd]
    refine flushLoop_ord dbg hF hp _ d h rfl ?_
    cases hl : d.ordered with
    | nil => rw [hl] at hmem; cases hmem
    | cons a t =>
      have h1 := h.ordGe a (by rw [hl]; simp)
      have h2 := h.ordSorted
      rw [hl, Sorted, List.pairwise_cons] at h2
      rw [hl] at hmem
      rcases List.mem_cons.1 hmem with hm | hm
      · exact ⟨t, by rw [hm]⟩
      · have := h2.1 _ hm; omega
  · exact ⟨d, rfl, h⟩

/-- A source that `u` hands over is the one `d` waits for, or newer. -/
theorem Ord.fm_le (h : Ord L d u) {x : Nat} (h1 : L ≤ x) (h2 : x ∉ u.handed) : d.firstMissing ≤ x := by
  apply Nat.le_of_not_lt
  exact fun hc => h2 (h.full x h1 hc)

/-- `u` hands over a source and `d` as well. -/
theorem Ord.give (dbg : Bool) (hF : LogFine F) (h : Ord L d u) {src : DSource} (hp : (u.callback src).log <+: F)
    (he : src.id = d.firstMissing) :
    ∃ d', Dec.flush dbg { d.callback src with firstMissing := (d.firstMissing + 1) % 2 ^ 32 } = .ok d' ∧
      Ord L d' (u.callback src) := by
  have hn := new_not_handed hF hp
  have hlog : (u.callback src).log = u.log ++ [⟨src.id, src.sym, u.sources.keys⟩] := rfl
  have hpu : u.log <+: (u.callback src).log := by rw [hlog]; exact List.prefix_append _ _
  have hself : src.id ∈ (u.callback src).handed := by unfold Dec.handed; rw [hlog]; simp
  have hmod : (d.firstMissing + 1) % 2 ^ 32 = d.firstMissing + 1 := by
    rw [← he]; exact Nat.mod_eq_of_lt (handed_bound hF hp hself)
  apply flush_ord dbg hF hp
  rw [hmod]
  have f_log : ({ d.callback src with firstMissing := d.firstMissing + 1 } : Dec).handed = d.handed ++ [d.firstMissing] := by
    rw [← he]; simp [Dec.handed, Dec.callback]
  refine ⟨⟨⟨h.like.same.1, h.like.same.2, h.like.same.3, h.like.same.4, h.like.same.5, h.like.same.6, h.like.same.7⟩,
    h.like.mode⟩, h.mode, ?_, ?_, ?_, h.ordSorted, ?_, h.ordSrc, ?_, Nat.le_succ_of_le h.lo, ?_⟩
  · rw [f_log]; exact sorted_append_singleton h.logSorted h.logLt
  · rw [f_log]
    intro x hx
    rcases List.mem_append.1 hx with hx | hx
    · exact Nat.lt_succ_of_lt (h.logLt x hx)
    · rw [List.mem_singleton.1 hx]; exact Nat.lt_succ_self _
  · intro ev hev
    rcases List.mem_append.1 (show ev ∈ d.log ++ [⟨src.id, src.sym, d.sources.keys⟩] from hev) with hev | hev
    · obtain ⟨e, h1, h2⟩ := h.logSub ev hev
      exact ⟨e, hpu.subset h1, h2⟩
    · rw [List.mem_singleton.1 hev]
      exact ⟨⟨src.id, src.sym, u.sources.keys⟩, by rw [hlog]; simp, rfl, rfl⟩
  · intro x hx
    rcases Nat.lt_or_eq_of_le (h.ordGe x hx) with hx' | hx'
    · exact hx'
    · exact absurd (h.src_handed (h.ordSrc x hx)) (by rw [← hx', ← he]; exact hn)
  · intro x v hv
    obtain ⟨h1, e, h2, h3⟩ := h.src x v hv
    exact ⟨h1, e, hpu.subset h2, h3⟩
  · intro y hy1 hy2
    rcases Nat.lt_or_eq_of_le (Nat.lt_succ_iff.1 hy2) with hy | hy
    · exact handed_mono hpu (h.full y hy1 hy)
    · rw [hy, ← he]; exact hself

/-! ## Adding a source -/

theorem giveNew_u {dbg : Bool} {src : DSource} {s : Dec} (h : s.inOrder = false) :
    s.giveNew dbg src = .ok (s.callback src) := by unfold Dec.giveNew; rw [h]; rfl

theorem giveNew_ord (dbg : Bool) (hF : LogFine F) (h : Ord L d u) {src : DSource} (hp : (u.callback src).log <+: F) :
    ∃ d', d.giveNew dbg src = .ok d' ∧ Ord L d' (u.callback src) := by
  unfold Dec.giveNew
  simp only [h.mode, Bool.not_true, Bool.false_eq_true, ↓reduceIte]
  split
  · next he => exact h.give dbg hF hp he
  · exact ⟨d, rfl, h.grow ⟨⟨h.like.same.1, h.like.same.2, h.like.same.3, h.like.same.4, h.like.same.5,
      h.like.same.6, h.like.same.7⟩, h.like.mode⟩ (by show u.log <+: u.log ++ _; exact List.prefix_append _ _)⟩

theorem removeFromAll_ord (gf : GF w) (dbg : Bool) (src : DSource) (l : List Nat) (d u u' : Dec)
    (h : removeFromAll gf dbg src l u = .ok u') (hl : Ord L d u) :
    ∃ d', removeFromAll gf dbg src l d = .ok d' ∧ Ord L d' u' := by
  induction l generalizing d u with
  | nil => cases h; exact ⟨d, rfl, hl⟩
  | cons rid rest ih =>
    unfold removeFromAll at h ⊢
    rw [hl.like.same.repairs] at h
    split at h
    · cases h
    · rw [bind_ok_iff] at h
      obtain ⟨r', h1, h⟩ := h
      obtain ⟨t', h2, h3⟩ := ih { d with repairs := d.repairs.modify rid (fun _ => r') } _ h
        (hl.core ⟨⟨rfl, hl.like.same.2, hl.like.same.3, hl.like.same.4, hl.like.same.5, hl.like.same.6, hl.like.same.7⟩,
          hl.like.mode⟩ rfl rfl rfl rfl rfl rfl)
      exact ⟨t', bind_ok_iff.2 ⟨r', h1, h2⟩, h3⟩

theorem addSourceHead_ord {gf : GF w} {dbg : Bool} {src : DSource} {u' : Dec} (hF : LogFine F) (h : Ord L d u)
    (hu : addSourceHead gf dbg src u = .ok u') (hp : u'.log <+: F) :
    ∃ d', addSourceHead gf dbg src d = .ok d' ∧ Ord L d' u' := by
  have hlog := (addSourceHead_hand h.like.mode hu).1
  unfold addSourceHead at hu ⊢
  rw [giveNew_u h.like.mode] at hu
  simp only [bind, Except.bind] at hu
  obtain ⟨d1, g1, o1⟩ := giveNew_ord (src := src) dbg hF h (by rw [hlog] at hp; exact hp)
  simp only [bind_ok_iff]
  rw [show (u.callback src).missing = d1.missing from o1.like.same.missing] at hu
  split at hu
  · rename_i hm
    cases hu
    exact ⟨d1, ⟨d1, g1, by rw [hm]; rfl⟩, o1⟩
  · rename_i links hm
    split at hu
    · cases hu
    · rename_i u2 h2
      cases hu
      obtain ⟨d2, g2, o2⟩ := removeFromAll_ord _ _ _ _ _ _ _ h2 o1
      refine ⟨{ d2 with missing := d2.missing.erase src.id }, ⟨d1, g1, ?_⟩, ?_⟩
      · rw [hm]; exact bind_ok_iff.2 ⟨d2, g2, rfl⟩
      · have l2 := o2.like
        exact o2.core ⟨⟨l2.same.1, l2.same.2, l2.same.3, by simp only; rw [l2.same.4], l2.same.5, l2.same.6, l2.same.7⟩,
          l2.mode⟩ rfl rfl rfl rfl rfl rfl

theorem addSourceTail_ord {dbg : Bool} {src : DSource} {u' : Dec} (h : Ord L d u)
    (hu : addSourceTail dbg src u = .ok u') (hs : ∃ e ∈ u.log, e.id = src.id ∧ e.data = src.sym) :
    ∃ d', addSourceTail dbg src d = .ok d' ∧ Ord L d' u' := by
  unfold addSourceTail at hu ⊢
  rw [bind_ok_iff] at hu
  obtain ⟨_, h1, hu⟩ := hu
  simp only [h.like.mode, Bool.false_and, Bool.false_eq_true, ↓reduceIte] at hu
  cases hu
  rw [h.like.same.sources] at h1
  rw [h1]
  simp only [bind, Except.bind]
  have hsrc : ∀ x v, (d.sources.emplace src.id src).get? x = some v → v.id = x ∧ ∃ e ∈ u.log, e.id = x ∧ e.data = v.sym := by
    intro x v hv
    rcases get?_emplace_cases _ _ _ _ _ hv with hv | ⟨rfl, rfl⟩
    · exact h.src x v hv
    · exact ⟨rfl, hs⟩
  have hlk : ∀ o, Like { d with sources := d.sources.emplace src.id src, ordered := o }
      { u with sources := u.sources.emplace src.id src, inOrder := false } := by
    intro o
    exact ⟨⟨h.like.same.1, by simp only; rw [h.like.same.2], h.like.same.3, h.like.same.4, h.like.same.5, h.like.same.6,
      h.like.same.7⟩, rfl⟩
  split
  · next hc =>
    have hgt : src.id > d.firstMissing := by simpa [h.mode] using hc
    refine ⟨_, rfl, hlk _, h.mode, h.logSorted, h.logLt, h.logSub, sorted_setInsert _ h.ordSorted _, ?_, ?_, hsrc, h.lo, h.full⟩
    · intro x hx
      rcases (mem_setInsert _ _ _).1 hx with rfl | hx
      · exact Nat.le_of_lt hgt
      · exact h.ordGe x hx
    · intro x hx
      apply (mem_keys_emplace _ _ _ _).2
      rcases (mem_setInsert _ _ _).1 hx with hx | hx
      · exact .inl hx
      · exact .inr (h.ordSrc x hx)
  · refine ⟨_, rfl, hlk _, h.mode, h.logSorted, h.logLt, h.logSub, h.ordSorted, h.ordGe, ?_, hsrc, h.lo, h.full⟩
    exact fun x hx => (mem_keys_emplace _ _ _ _).2 (.inr (h.ordSrc x hx))

theorem add_scan_ord (gf : GF w) (dbg : Bool) (hF : LogFine F) (fuel : Nat) :
    (∀ src d u u', Ord L d u → addSource gf dbg fuel src u = .ok u' → u'.log <+: F →
      ∃ d', addSource gf dbg fuel src d = .ok d' ∧ Ord L d' u') ∧
    (∀ k d u u', Ord L d u → scanMissing gf dbg fuel k u = .ok u' → u'.log <+: F →
      ∃ d', scanMissing gf dbg fuel k d = .ok d' ∧ Ord L d' u') := by
  induction fuel with
  | zero =>
    constructor
    · intro src d u u' _ h; unfold addSource at h; cases h
    · intro k d u u' hl h _
      cases k with
      | none => unfold scanMissing at h ⊢; cases h; exact ⟨d, rfl, hl⟩
      | some k => unfold scanMissing at h; cases h
  | succ fuel ih =>
    constructor
    · intro src d u u' hl h hp
      have hpre := ((add_scan_hand gf dbg (fuel + 1)).1 _ _ _ hl.like.mode h).pre
      unfold addSource at h ⊢
      rw [bind_ok_iff] at h
      obtain ⟨u1, h1, h⟩ := h
      rw [bind_ok_iff] at h
      obtain ⟨u2, h2, h⟩ := h
      obtain ⟨e1, e2⟩ := addSourceHead_hand hl.like.mode h1
      have a1 : Hand u u1 := Hand.of_ext hl.like.mode (addSourceHead_ext h1) e2
      have a2 := (add_scan_hand gf dbg fuel).2 _ _ _ a1.mode h2
      have e3 : u'.log = u2.log := by
        unfold addSourceTail at h
        rw [bind_ok_iff] at h
        obtain ⟨_, _, h⟩ := h
        simp only [a2.mode, Bool.false_and, Bool.false_eq_true, ↓reduceIte] at h
        cases h; rfl
      rw [e3] at hp
      obtain ⟨d1, g1, o1⟩ := addSourceHead_ord hF hl h1 (a2.pre.trans hp)
      obtain ⟨d2, g2, o2⟩ := ih.2 _ _ _ _ o1 h2 hp
      obtain ⟨d3, g3, o3⟩ := addSourceTail_ord o2 h
        ⟨⟨src.id, src.sym, u.sources.keys⟩, a2.pre.subset (by rw [e1]; simp), rfl, rfl⟩
      refine ⟨d3, bind_ok_iff.2 ⟨d1, g1, bind_ok_iff.2 ⟨d2, ?_, g3⟩⟩, o3⟩
      rw [← o1.like.same.missing]; exact g2
    · intro k d u u' hl h hp
      cases k with
      | none => unfold scanMissing at h ⊢; cases h; exact ⟨d, rfl, hl⟩
      | some k =>
        rw [scanMissing] at h ⊢
        rw [hl.like.same.missing, hl.like.same.repairs, hl.like.same.lastId, hl.like.same.sources] at h
        split at h
        · cases h
        · rename_i rid hm
          split at h
          · cases h
          · rename_i r hr
            split at h
            · rename_i hlen
              rw [bind_ok_iff] at h
              obtain ⟨_, a1, h⟩ := h
              rw [bind_ok_iff] at h
              obtain ⟨_, a2, h⟩ := h
              rw [bind_ok_iff] at h
              obtain ⟨src, a3, h⟩ := h
              simp only at h
              rw [bind_ok_iff] at h
              obtain ⟨u1, h1, h⟩ := h
              have b1 := (add_scan_hand gf dbg fuel).1 _ _ _ (by exact hl.like.mode) h1
              have b2 := (add_scan_hand gf dbg fuel).2 _ _ _ b1.mode h
              have hl2 : Ord L { d with nbDecoded := d.nbDecoded + 1, repairs := d.repairs.erase rid,
                                        missing := d.missing.erase k }
                  { u with nbDecoded := u.nbDecoded + 1, repairs := d.repairs.erase rid,
                           missing := d.missing.erase k, sources := d.sources, lastId := d.lastId } :=
                hl.core (by
                  have hk := hl.like
                  like hk) rfl rfl rfl rfl rfl rfl
              obtain ⟨d1, g1, o1⟩ := ih.1 _ _ _ _ hl2 h1 (b2.pre.trans hp)
              obtain ⟨d2, g2, o2⟩ := ih.2 _ _ _ _ o1 h hp
              refine ⟨d2, ?_, o2⟩
              rw [if_pos hlen]
              refine bind_ok_iff.2 ⟨(), a1, bind_ok_iff.2 ⟨(), a2, bind_ok_iff.2 ⟨src, a3, ?_⟩⟩⟩
              exact bind_ok_iff.2 ⟨d1, g1, g2⟩
            · rename_i hlen
              rw [if_neg hlen]
              exact ih.2 _ _ _ _ hl h hp
        · exact ih.2 _ _ _ _ hl h hp

/-! ## Full decoding -/

theorem insertDecoded_ord {dbg : Bool} {src : DSource} {u' : Dec} (hF : LogFine F) (h : Ord L d u)
    (hu : u.insertDecoded dbg src = .ok u') (hp : u'.log <+: F) (hs : L ≤ src.id) :
    ∃ d', d.insertDecoded dbg src = .ok d' ∧ Ord L d' u' := by
  unfold Dec.insertDecoded at hu ⊢
  rw [bind_ok_iff] at hu
  obtain ⟨_, a1, hu⟩ := hu
  rw [h.like.same.sources] at a1 hu
  rw [a1]
  simp only [bind, Except.bind] at hu ⊢
  split at hu
  · cases hu
  · rename_i v hv
    have hg : ∀ t : Dec, t.inOrder = false → Dec.giveDecoded dbg v t = .ok (t.callback v) := by
      intro t ht; unfold Dec.giveDecoded; rw [ht]; rfl
    rw [hg _ (by exact h.like.mode)] at hu
    cases hu
    have hlog : ({ u with sources := d.sources.emplace src.id src }.callback v).log =
        u.log ++ [⟨v.id, v.sym, (d.sources.emplace src.id src).keys⟩] := rfl
    have hn : v.id ∉ u.handed := new_not_handed (u := { u with sources := d.sources.emplace src.id src }) hF hp
    obtain rfl : v = src := by
      rcases get?_emplace_cases _ _ _ _ _ hv with hv | ⟨_, rfl⟩
      · obtain ⟨k1, e, k2, k3, _⟩ := h.src _ _ hv
        exact absurd (by rw [k1, ← k3]; exact List.mem_map_of_mem k2) hn
      · rfl
    have hge := h.fm_le hs hn
    have hgd : ∀ t : Dec, t.inOrder = true → Dec.giveDecoded dbg v t = if v.id = t.firstMissing then
        Dec.flush dbg { t.callback v with firstMissing := (t.firstMissing + 1) % 2 ^ 32 }
        else .ok { t with ordered := setInsert t.ordered v.id } := by
      intro t ht; unfold Dec.giveDecoded; rw [ht]; rfl
    rw [hgd _ (by exact h.mode)]
    simp only
    have hpu : u.log <+: ({ u with sources := d.sources.emplace v.id v }.callback v).log := by
      rw [hlog]; exact List.prefix_append _ _
    have hself : ∃ e ∈ ({ u with sources := d.sources.emplace v.id v }.callback v).log, e.id = v.id ∧ e.data = v.sym :=
      ⟨⟨v.id, v.sym, (d.sources.emplace v.id v).keys⟩, by rw [hlog]; simp, rfl, rfl⟩
    have hself' : v.id ∈ ({ u with sources := d.sources.emplace v.id v }.callback v).handed := by
      unfold Dec.handed; rw [hlog]; simp
    have hsrc : ∀ x z, (d.sources.emplace v.id v).get? x = some z →
        z.id = x ∧ ∃ e ∈ ({ u with sources := d.sources.emplace v.id v }.callback v).log, e.id = x ∧ e.data = z.sym := by
      intro x z hz
      rcases get?_emplace_cases _ _ _ _ _ hz with hz | ⟨rfl, rfl⟩
      · obtain ⟨k1, e, k2, k3⟩ := h.src x z hz
        exact ⟨k1, e, hpu.subset k2, k3⟩
      · exact ⟨rfl, hself⟩
    have hls : ∀ ev ∈ d.log, ∃ e ∈ ({ u with sources := d.sources.emplace v.id v }.callback v).log,
        e.id = ev.id ∧ e.data = ev.data := by
      intro ev hev
      obtain ⟨e, k1, k2⟩ := h.logSub ev hev
      exact ⟨e, hpu.subset k1, k2⟩
    split
    · next he =>
      apply flush_ord dbg hF hp
      have hmod : (d.firstMissing + 1) % 2 ^ 32 = d.firstMissing + 1 := by
        rw [← he]; exact Nat.mod_eq_of_lt (handed_bound hF hp hself')
      rw [hmod]
      have f_log : ({ { d with sources := d.sources.emplace v.id v }.callback v with firstMissing := d.firstMissing + 1 } : Dec).handed
          = d.handed ++ [d.firstMissing] := by
        rw [← he]; simp [Dec.handed, Dec.callback]
      refine ⟨⟨⟨h.like.same.1, rfl, h.like.same.3, h.like.same.4, h.like.same.5, h.like.same.6, h.like.same.7⟩,
        h.like.mode⟩, h.mode, ?_, ?_, ?_, h.ordSorted, ?_, ?_, hsrc, Nat.le_succ_of_le h.lo, ?_⟩
      · rw [f_log]; exact sorted_append_singleton h.logSorted h.logLt
      · rw [f_log]
        intro x hx
        rcases List.mem_append.1 hx with hx | hx
        · exact Nat.lt_succ_of_lt (h.logLt x hx)
        · rw [List.mem_singleton.1 hx]; exact Nat.lt_succ_self _
      · intro ev hev
        rcases List.mem_append.1 (show ev ∈ d.log ++ [⟨v.id, v.sym, (d.sources.emplace v.id v).keys⟩] from hev) with hev | hev
        · exact hls ev hev
        · rw [List.mem_singleton.1 hev]; exact hself
      · intro x hx
        rcases Nat.lt_or_eq_of_le (h.ordGe x hx) with hx' | hx'
        · exact hx'
        · exact absurd (h.src_handed (h.ordSrc x hx)) (by rw [← hx', ← he]; exact hn)
      · exact fun x hx => (mem_keys_emplace _ _ _ _).2 (.inr (h.ordSrc x hx))
      · intro y hy1 hy2
        rcases Nat.lt_or_eq_of_le (Nat.lt_succ_iff.1 hy2) with hy | hy
        · exact handed_mono hpu (h.full y hy1 hy)
        · rw [hy, ← he]; exact hself'
    · refine ⟨_, rfl, ⟨⟨h.like.same.1, rfl, h.like.same.3, h.like.same.4, h.like.same.5, h.like.same.6, h.like.same.7⟩,
        h.like.mode⟩, h.mode, h.logSorted, h.logLt, hls, sorted_setInsert _ h.ordSorted _, ?_, ?_, hsrc, h.lo,
        fun y h1 h2 => handed_mono hpu (h.full y h1 h2)⟩
      · intro x hx
        rcases (mem_setInsert _ _ _).1 hx with rfl | hx
        · exact hge
        · exact h.ordGe x hx
      · intro x hx
        apply (mem_keys_emplace _ _ _ _).2
        rcases (mem_setInsert _ _ _).1 hx with hx | hx
        · exact .inl hx
        · exact .inr (h.ordSrc x hx)

theorem decodeLoop_ord (gf : GF w) (dbg : Bool) (hF : LogFine F) (inv : Mat w) (reps : List DRepair) (l : List Nat) (col : Nat)
    (d u u' : Dec) (h : Ord L d u) (hu : decodeLoop gf dbg inv reps col l u = .ok u') (hp : u'.log <+: F)
    (hl : ∀ x ∈ l, L ≤ x) : ∃ d', decodeLoop gf dbg inv reps col l d = .ok d' ∧ Ord L d' u' := by
  induction l generalizing col d u with
  | nil => unfold decodeLoop at hu ⊢; cases hu; exact ⟨d, rfl, h⟩
  | cons x rest ih =>
    unfold decodeLoop at hu ⊢
    rw [bind_ok_iff] at hu
    obtain ⟨sym, a1, hu⟩ := hu
    rw [bind_ok_iff] at hu
    obtain ⟨u1, h1, hu⟩ := hu
    have b1 := insertDecoded_hand h.like.mode h1
    have b2 := decodeLoop_hand _ _ _ _ _ _ _ _ b1.mode hu
    obtain ⟨d1, g1, o1⟩ := insertDecoded_ord hF h h1 (b2.pre.trans hp) (hl x List.mem_cons_self)
    obtain ⟨d2, g2, o2⟩ := ih _ _ _ o1 hu fun y hy => hl y (List.mem_cons_of_mem _ hy)
    exact ⟨d2, bind_ok_iff.2 ⟨sym, a1, bind_ok_iff.2 ⟨d1, g1, g2⟩⟩, o2⟩

theorem fullDecode_ord {gf : GF w} {dbg : Bool} {u' : Dec} (hF : LogFine F) (h : Ord L d u)
    (hu : u.fullDecode gf dbg = .ok u') (hp : u'.log <+: F) (hl : ∀ x ∈ u.missing.keys, L ≤ x) :
    ∃ d', d.fullDecode gf dbg = .ok d' ∧ Ord L d' u' := by
  unfold Dec.fullDecode at hu ⊢
  rw [h.like.same.missing] at hl
  rw [h.like.same.repairs, h.like.same.missing] at hu
  split at hu
  · rename_i hc; rw [if_pos hc]; cases hu; exact ⟨d, rfl, h⟩
  rename_i hc; rw [if_neg hc]
  split at hu
  · rename_i hc; rw [if_pos hc]; cases hu; exact ⟨d, rfl, h⟩
  rename_i hc; rw [if_neg hc]
  rw [bind_ok_iff] at hu
  obtain ⟨_, a1, hu⟩ := hu
  rw [bind_ok_iff] at hu
  obtain ⟨_, a2, hu⟩ := hu
  rw [bind_ok_iff] at hu
  obtain ⟨_, a3, hu⟩ := hu
  rw [a1, a2, a3]
  simp only [bind, Except.bind]
  have lk := h.like
  split at hu
  · rename_i c hinv
    split at hu
    · cases hu
    · rename_i hr
      rw [bind_ok_iff] at hu
      obtain ⟨_, a4, hu⟩ := hu
      cases hu
      rw [a4]
      exact ⟨_, rfl, h.core ⟨⟨rfl, lk.same.2, lk.same.3, rfl, lk.same.5, by simp only; rw [lk.same.6], lk.same.7⟩, lk.mode⟩
        rfl rfl rfl rfl rfl rfl⟩
  · rename_i inv hinv
    simp only at hu ⊢
    rw [bind_ok_iff] at hu
    obtain ⟨u1, h1, hu⟩ := hu
    cases hu
    obtain ⟨d1, g1, o1⟩ := decodeLoop_ord _ _ hF _ _ _ _ _ _ _ h h1 hp hl
    have l1 := o1.like
    rw [g1]
    exact ⟨_, rfl, o1.core ⟨⟨rfl, l1.same.2, l1.same.3, rfl, l1.same.5, l1.same.6, by simp only; rw [l1.same.7]⟩, l1.mode⟩
      rfl rfl rfl rfl rfl rfl⟩

/-! ## A packet -/

theorem onSource_ord {gf : GF w} {dbg : Bool} {u' : Dec} {src : DSource} {o : Option Nat} (hF : LogFine F) (h : Ord L d u)
    (hlow : Low L o u) (ho : L = o.getD 0) (hu : u.onSource gf dbg src = .ok u') (hp : u'.log <+: F) :
    ∃ d', d.onSource gf dbg src = .ok d' ∧ Ord L d' u' := by
  unfold Dec.onSource at hu ⊢
  have hs : ¬ (u.lastId.any (fun l => decide (src.id < l)) = true) → L ≤ src.id := by
    rw [hlow.last, ho]
    cases o with
    | none => exact fun _ => Nat.zero_le _
    | some b => simp
  rw [h.like.same.lastId] at hs
  rw [h.like.same.lastId, h.like.same.sources] at hu
  split at hu
  · rename_i hc; rw [if_pos hc]; cases hu; exact ⟨d, rfl, h⟩
  rename_i hc; rw [if_neg hc]
  have hs := hs hc
  split at hu
  · rename_i hc; rw [if_pos hc]; cases hu; exact ⟨d, rfl, h⟩
  rename_i hc; rw [if_neg hc]
  rw [bind_ok_iff] at hu
  obtain ⟨u1, h1, hu⟩ := hu
  have b1 := (add_scan_hand gf dbg _).1 _ _ _ h.like.mode h1
  have b2 := fullDecode_hand b1.mode hu
  have l1 := (add_scan_low gf dbg _).1 _ _ _ h1 hs hlow
  obtain ⟨d1, g1, o1⟩ := (add_scan_ord gf dbg hF _).1 _ _ _ _ h h1 (b2.pre.trans hp)
  obtain ⟨d2, g2, o2⟩ := fullDecode_ord hF o1 hu hp l1.mis
  refine ⟨d2, bind_ok_iff.2 ⟨d1, ?_, g2⟩, o2⟩
  have : u.fuel = d.fuel := by unfold Dec.fuel; rw [h.like.same.repairs, h.like.same.missing]
  rw [← this]; exact g1

theorem dropRepairs_frame (dbg : Bool) (id : Nat) (l : OMap DRepair) (s s' : Dec)
    (h : dropRepairs dbg id l s = .ok s') : s'.inOrder = s.inOrder ∧ s'.log = s.log ∧ s'.firstMissing = s.firstMissing ∧
      s'.ordered = s.ordered ∧ s'.sources = s.sources := by
  induction l generalizing s with
  | nil => cases h; exact ⟨rfl, rfl, rfl, rfl, rfl⟩
  | cons p rest ih =>
    obtain ⟨rid, r⟩ := p
    unfold dropRepairs at h
    rw [bind_ok_iff] at h
    obtain ⟨_, a1, h⟩ := h
    split at h
    · cases h
    · split at h
      · rw [bind_ok_iff] at h
        obtain ⟨_, _, h⟩ := h
        rw [bind_ok_iff] at h
        obtain ⟨m, a2, h⟩ := h
        exact ih { s with missing := m, repairs := s.repairs.erase rid } h
      · exact ih _ h

theorem dropRepairs_same (dbg : Bool) (id : Nat) (l : OMap DRepair) (s s' t : Dec)
    (h : dropRepairs dbg id l s = .ok s') (hl : SameC s t) : ∃ t', dropRepairs dbg id l t = .ok t' ∧ SameC s' t' := by
  induction l generalizing s t with
  | nil => cases h; exact ⟨t, rfl, hl⟩
  | cons p rest ih =>
    obtain ⟨rid, r⟩ := p
    unfold dropRepairs at h ⊢
    rw [bind_ok_iff] at h
    obtain ⟨_, a1, h⟩ := h
    rw [a1]
    simp only [bind, Except.bind]
    split at h
    · cases h
    · split at h
      · rename_i hx
        rw [bind_ok_iff] at h
        obtain ⟨_, a0, h⟩ := h
        rw [bind_ok_iff] at h
        obtain ⟨m, a2, h⟩ := h
        obtain ⟨t', g, l⟩ := ih _ { t with missing := m, repairs := s.repairs.erase rid }
          h ⟨rfl, hl.2, hl.3, rfl, hl.5, hl.6, hl.7⟩
        refine ⟨t', ?_, l⟩
        rw [if_pos hx, hl.missing, hl.repairs, a0, a2]
        exact g
      · rename_i hx
        rw [if_neg hx]
        exact ih _ _ h hl

theorem giveOutdated_ord (l : List Nat) (d : Dec) (rest : List Nat) (hl : d.ordered = l ++ rest)
    (hs : ∀ x ∈ l, ∃ v, d.sources.get? x = some v ∧ v.id = x) :
    ∃ d', giveOutdated l d = .ok d' ∧ SameC d d' ∧ d'.inOrder = d.inOrder ∧ d'.firstMissing = d.firstMissing ∧
      d'.ordered = rest ∧ d'.handed = d.handed ++ l ∧
      ∀ ev ∈ d'.log, ev ∈ d.log ∨ ∃ x v, d.sources.get? x = some v ∧ ev.id = v.id ∧ ev.data = v.sym := by
  induction l generalizing d with
  | nil => exact ⟨d, rfl, SameC.refl d, rfl, rfl, by simpa using hl, by simp, fun ev h => .inl h⟩
  | cons k t ih =>
    unfold giveOutdated
    obtain ⟨v, hv, hid⟩ := hs k List.mem_cons_self
    have e1 : d.callbackOrdered k = .ok (d.callback v) := by simp [Dec.callbackOrdered, hv]
    simp only [bind, Except.bind, e1]
    generalize hs1 : ({ d.callback v with ordered := (d.callback v).ordered.erase k } : Dec) = d1
    have f_ord : d1.ordered = t ++ rest := by rw [← hs1]; simp [Dec.callback, hl]
    have f_log2 : d1.log = d.log ++ [⟨v.id, v.sym, d.sources.keys⟩] := by rw [← hs1]; rfl
    have f_log : d1.handed = d.handed ++ [k] := by unfold Dec.handed; rw [f_log2, ← hid]; simp
    have f_src : d1.sources = d.sources := by rw [← hs1]; rfl
    have f_c : SameC d d1 := by rw [← hs1]; exact ⟨rfl, rfl, rfl, rfl, rfl, rfl, rfl⟩
    obtain ⟨d', g, c, r1, r2, r3, r4, r5⟩ := ih d1 f_ord (by
      rw [f_src]; exact fun x hx => hs x (List.mem_cons_of_mem _ hx))
    refine ⟨d', g, f_c.trans c, by rw [r1, ← hs1]; rfl, by rw [r2, ← hs1]; rfl, r3, by rw [r4, f_log]; simp, ?_⟩
    intro ev hev
    rcases r5 ev hev with h | h
    · rw [f_log2] at h
      rcases List.mem_append.1 h with h | h
      · exact .inl h
      · rw [List.mem_singleton.1 h]; exact .inr ⟨k, v, hv, rfl, rfl⟩
    · rw [f_src] at h; exact .inr h

theorem mem_takeWhile_lt {l : List Nat} {id x : Nat} (h : x ∈ l.takeWhile (fun k => decide (k < id))) : x < id := by
  induction l with
  | nil => cases h
  | cons a t ih =>
    rw [List.takeWhile_cons] at h
    split at h
    · next hc =>
      rcases List.mem_cons.1 h with rfl | h
      · simpa using hc
      · exact ih h
    · cases h

theorem le_of_mem_dropWhile {l : List Nat} {id x : Nat} (hs : Sorted l)
    (h : x ∈ l.dropWhile (fun k => decide (k < id))) : id ≤ x := by
  induction l with
  | nil => cases h
  | cons a t ih =>
    rw [Sorted, List.pairwise_cons] at hs
    rw [List.dropWhile_cons] at h
    split at h
    · exact ih hs.2 h
    · next hc =>
      have : id ≤ a := by simpa using hc
      rcases List.mem_cons.1 h with rfl | h
      · exact this
      · exact Nat.le_of_lt (Nat.lt_of_le_of_lt this (hs.1 x h))

theorem get?_eraseBelow' {V : Type} {m : OMap V} {id x : Nat} {v : V} (h : (m.eraseBelow id).get? x = some v)
    (hs : SortedKeys m) : m.get? x = some v := by
  have h1 := mem_of_get? h
  exact get?_of_mem hs (List.mem_filter.1 h1).1

theorem dropOutdated_ord {dbg : Bool} {id : Nat} {u' : Dec} (hF : LogFine F) (h : Ord L d u) (hL : L ≤ id)
    (hk : SortedKeys d.sources) (hu : u.dropOutdated dbg id = .ok u') (hp : u'.log <+: F) :
    ∃ d', d.dropOutdated dbg id = .ok d' ∧ Ord id d' u' := by
  unfold Dec.dropOutdated at hu ⊢
  simp only at hu ⊢
  rw [bind_ok_iff] at hu
  obtain ⟨u1, h1, hu⟩ := hu
  rw [bind_ok_iff] at hu
  obtain ⟨u2, h2, hu⟩ := hu
  have lk := h.like
  obtain ⟨f1, f2, f3, f4, f5⟩ := dropRepairs_frame _ _ _ _ _ h1
  have hm1 : u1.inOrder = false := f1.trans lk.mode
  obtain rfl : u1 = u2 := by unfold Dec.giveAllOutdated at h2; rw [hm1] at h2; cases h2; rfl
  cases hu
  obtain ⟨d1, g1, c1⟩ := dropRepairs_same _ _ _ _ _ { d with lastId := some id } h1
    (SameC.symm ⟨lk.same.1, lk.same.2, rfl, lk.same.4, lk.same.5, lk.same.6, lk.same.7⟩)
  rw [lk.same.repairs] at g1
  obtain ⟨e1, e2, e3, e4, e5⟩ := dropRepairs_frame _ _ _ _ _ g1
  have o1 : Ord L d1 u1 := h.core ⟨c1.symm, hm1⟩ e1 e2 e3 e4 e5 f2
  have hk1 : SortedKeys d1.sources := by rw [e5]; exact hk
  clear h c1 e1 e2 e3 e4 e5 f1 f2 f3 f4 f5 hk h1
  have hsplit : d1.ordered = d1.ordered.takeWhile (fun k => decide (k < id)) ++ d1.ordered.dropWhile (fun k => decide (k < id)) :=
    List.takeWhile_append_dropWhile.symm
  have hsub : ∀ x ∈ d1.ordered.takeWhile (fun k => decide (k < id)), x ∈ d1.ordered := fun x hx => by
    rw [hsplit]; exact List.mem_append_left _ hx
  have hsub' : ∀ x ∈ d1.ordered.dropWhile (fun k => decide (k < id)), x ∈ d1.ordered := fun x hx => by
    rw [hsplit]; exact List.mem_append_right _ hx
  obtain ⟨d2, g2, c2, m2, fm2, r2, l2, v2⟩ := giveOutdated_ord _ d1 _ hsplit (by
    intro x hx
    obtain ⟨v, hv⟩ := (get?_isSome_iff _ _).2 (o1.ordSrc x (hsub x hx))
    exact ⟨v, hv, (o1.src x v hv).1⟩)
  have hso := o1.ordSorted
  rw [hsplit, Sorted, List.pairwise_append] at hso
  have hfm : ∀ x, d1.firstMissing ≤ x → id ≤ x → (if d2.firstMissing < id then id else d2.firstMissing) ≤ x := by
    intro x k1 k2; split
    · exact k2
    · rw [fm2]; exact k1
  have hid : id ≤ (if d2.firstMissing < id then id else d2.firstMissing) := by split <;> omega
  have hfm' : d1.firstMissing ≤ (if d2.firstMissing < id then id else d2.firstMissing) := by split <;> omega
  have o2 : Ord id { d2 with firstMissing := if d2.firstMissing < id then id else d2.firstMissing } u1 := by
    refine ⟨⟨?_, hm1⟩, m2.trans o1.mode, ?_, ?_, ?_, ?_, ?_, ?_, ?_, hid, ?_⟩
    · have := c2.symm.trans o1.like.same
      exact ⟨this.1, this.2, this.3, this.4, this.5, this.6, this.7⟩
    · show Sorted d2.handed
      rw [l2, Sorted, List.pairwise_append]
      exact ⟨o1.logSorted, hso.1, fun a ha b hb => Nat.lt_of_lt_of_le (o1.logLt a ha) (o1.ordGe b (hsub b hb))⟩
    · intro x hx
      rw [show Dec.handed { d2 with firstMissing := if d2.firstMissing < id then id else d2.firstMissing } = d2.handed from rfl,
        l2] at hx
      rcases List.mem_append.1 hx with hx | hx
      · exact Nat.lt_of_lt_of_le (o1.logLt x hx) hfm'
      · exact Nat.lt_of_lt_of_le (mem_takeWhile_lt hx) hid
    · intro ev hev
      rcases v2 ev hev with hev | ⟨x, v, k1, k2, k3⟩
      · exact o1.logSub ev hev
      · obtain ⟨k4, e, k5, k6, k7⟩ := o1.src x v k1
        exact ⟨e, k5, by rw [k6, k2, k4], by rw [k7, k3]⟩
    · show Sorted d2.ordered
      rw [r2]; exact hso.2.1
    · intro x hx
      rw [show Dec.ordered { d2 with firstMissing := if d2.firstMissing < id then id else d2.firstMissing } = d2.ordered from rfl,
        r2] at hx
      exact hfm x (o1.ordGe x (hsub' x hx)) (le_of_mem_dropWhile o1.ordSorted hx)
    · intro x hx
      rw [show Dec.ordered { d2 with firstMissing := if d2.firstMissing < id then id else d2.firstMissing } = d2.ordered from rfl,
        r2] at hx
      show x ∈ d2.sources.keys
      rw [c2.sources]
      exact o1.ordSrc x (hsub' x hx)
    · intro x v hv
      rw [show Dec.sources { d2 with firstMissing := if d2.firstMissing < id then id else d2.firstMissing } = d2.sources from rfl,
        c2.sources] at hv
      exact o1.src x v hv
    · intro y hy1 hy2
      refine o1.full y (Nat.le_trans hL hy1) ?_
      simp only at hy2
      split at hy2
      · omega
      · rw [← fm2]; exact hy2
  obtain ⟨d3, g3, o3⟩ := flush_ord dbg hF (show u1.log <+: F from hp) _ o2
  have c3 := flush_C g3
  refine ⟨{ d3 with sources := d3.sources.eraseBelow id, missing := d3.missing.eraseBelow id },
    bind_ok_iff.2 ⟨d1, g1, bind_ok_iff.2 ⟨d3, ?_, rfl⟩⟩, ?_⟩
  · unfold Dec.giveAllOutdated
    rw [if_pos o1.mode]
    exact bind_ok_iff.2 ⟨d2, g2, g3⟩
  · have l3 := o3.like
    refine ⟨⟨⟨l3.same.1, ?_, l3.same.3, ?_, l3.same.5, l3.same.6, l3.same.7⟩, l3.mode⟩, o3.mode, o3.logSorted, o3.logLt,
      o3.logSub, o3.ordSorted, o3.ordGe, ?_, ?_, o3.lo, o3.full⟩
    · simp only; rw [l3.same.2]
    · simp only; rw [l3.same.4]
    · exact fun x hx => (mem_keys_eraseBelow _ _ _).2 ⟨o3.ordSrc x hx, Nat.le_trans o3.lo (o3.ordGe x hx)⟩
    · intro x v hv
      refine o3.src x v (get?_eraseBelow' hv ?_)
      rw [c3.sources]
      show SortedKeys d2.sources
      rw [c2.sources]; exact hk1

theorem onRepair_ord {gf : GF w} {dbg : Bool} {u' : Dec} {r : DRepair} {o : Option Nat} (hF : LogFine F)
    (h : Ord L d u) (hlow : Low L o u) (hsort : Sorted r.ids)
    (hL : ∀ f, r.ids.head? = some f → u'.lastId = some f → L ≤ f)
    (hk : SortedKeys d.sources) (hu : u.onRepair gf dbg r = .ok u') (hp : u'.log <+: F) :
    ∃ d', d.onRepair gf dbg r = .ok d' ∧ ((u' = u ∧ Ord L d' u') ∨ ∃ f, u'.lastId = some f ∧ Ord f d' u') := by
  have hids : ∀ f, r.ids.head? = some f → ∀ x ∈ r.ids, f ≤ x := by
    intro f hf x hx
    cases hr : r.ids with
    | nil => rw [hr] at hx; cases hx
    | cons a t =>
      rw [hr] at hf hx hsort
      cases hf
      rcases List.mem_cons.1 hx with rfl | hx
      · exact Nat.le_refl _
      · exact Nat.le_of_lt ((List.pairwise_cons.1 hsort).1 x hx)
  have hlw := onRepair_low hu hsort hlow
  unfold Dec.onRepair at hu ⊢
  rw [bind_ok_iff] at hu
  obtain ⟨_, a1, hu⟩ := hu
  rw [a1]
  simp only [bind, Except.bind]
  rw [h.like.same.repairs] at hlw
  rw [h.like.same.lastId, h.like.same.repairs] at hu
  split at hu
  · next lastIn firstIn e1 e2 =>
    have hids := hids firstIn e2
    have hout : d.lastId.any (fun l => decide (lastIn < l)) = true ↔ u.Outdated lastIn := by
      rw [← h.like.same.lastId]
      unfold Dec.Outdated
      cases u.lastId <;> simp
    split at hu
    · rename_i hc; rw [if_pos hc]; cases hu; exact ⟨d, rfl, .inl ⟨rfl, h⟩⟩
    rename_i hc; rw [if_neg hc]
    split at hu
    · rename_i hc; rw [if_pos hc]; cases hu; exact ⟨d, rfl, .inl ⟨rfl, h⟩⟩
    rename_i hnh; rw [if_neg hnh]
    have hlast : u'.lastId = some firstIn := by
      rcases hlw with ⟨h1 | h1, _⟩ | ⟨_, _, f, h1, h2⟩
      · obtain ⟨x, h1, h2⟩ := h1
        rw [e1] at h1
        cases h1
        exact absurd (hout.2 h2) hc
      · exact absurd h1 hnh
      · rw [e2] at h1; cases h1; exact h2.last
    have hLf := hL firstIn e2 hlast
    rw [bind_ok_iff] at hu
    obtain ⟨u1, h1, hu⟩ := hu
    have m1 : u1.inOrder = false := (dropOutdated_ext h1).inOrder.trans h.like.mode
    have low1 := dropOutdated_low h1 hlow
    split at hu
    · rename_i hc
      cases hu
      obtain ⟨d1, g1, o1⟩ := dropOutdated_ord hF h hLf hk h1 hp
      have l1 := o1.like
      rw [l1.same.sources] at hc
      rw [g1]
      simp only
      rw [if_pos hc]
      exact ⟨_, rfl, .inr ⟨_, hlast, (o1.core (by like l1) rfl rfl rfl rfl rfl rfl)⟩⟩
    rename_i hc
    rw [bind_ok_iff] at hu
    obtain ⟨_, a0, hu⟩ := hu
    rw [bind_ok_iff] at hu
    obtain ⟨⟨r', m⟩, a2, hu⟩ := hu
    simp only at hu
    rw [bind_ok_iff] at hu
    obtain ⟨_, a3, hu⟩ := hu
    obtain ⟨q1, q2, q3⟩ := linkFold_low _ _ _ a2 (fun x hx => hids x (List.mem_reverse.1 hx)) hids hsort low1.mis
    have hpre : u1.log <+: u'.log := by
      split at hu
      · rw [bind_ok_iff] at hu
        obtain ⟨src, _, hu⟩ := hu
        exact ((add_scan_hand gf dbg _).1 _ _ _ (by exact m1) hu).pre
      · exact (fullDecode_hand (by exact m1) hu).pre
    obtain ⟨d1, g1, o1⟩ := dropOutdated_ord hF h hLf hk h1 (hpre.trans hp)
    have l1 := o1.like
    rw [l1.same.sources] at hc
    rw [l1.same.sources, l1.same.missing] at a2
    rw [l1.same.sources, l1.same.missing, show linksAlive u1.repairs d1.missing _ = linksAlive d1.repairs d1.missing _ from by
      rw [l1.same.repairs]] at a0
    rw [g1]
    simp only
    rw [if_neg hc, a0]
    simp only
    rw [a2]
    simp only
    rw [a3]
    simp only
    split at hu
    · rename_i hlen; rw [if_pos hlen]
      rw [bind_ok_iff] at hu
      obtain ⟨src, a4, hu⟩ := hu
      rw [a4]
      simp only at hu ⊢
      have o2 : Ord firstIn
          { d1 with nbDecoded := d1.nbDecoded + 1, missing := m.erase src.id,
                    repairs := (d1.repairs.emplace r'.id r').erase r'.id }
          { u1 with nbDecoded := u1.nbDecoded + 1, missing := m.erase src.id,
                    repairs := (u1.repairs.emplace r'.id r').erase r'.id } :=
        o1.core (by like l1) rfl rfl rfl rfl rfl rfl
      obtain ⟨d2, g2, o3⟩ := (add_scan_ord gf dbg hF _).1 _ _ _ _ o2 hu hp
      refine ⟨d2, ?_, .inr ⟨_, hlast, o3⟩⟩
      refine Eq.trans ?_ g2
      congr 1
      simp only [Dec.fuel, l1.same.1]
    · rename_i hlen; rw [if_neg hlen]
      have o2 : Ord firstIn { d1 with repairs := d1.repairs.emplace r'.id r', missing := m }
          { u1 with repairs := u1.repairs.emplace r'.id r', missing := m } :=
        o1.core (by like l1) rfl rfl rfl rfl rfl rfl
      obtain ⟨d2, g2, o3⟩ := fullDecode_ord hF o2 hu hp q3
      exact ⟨d2, g2, .inr ⟨_, hlast, o3⟩⟩
  · cases hu

end

end Netcode
