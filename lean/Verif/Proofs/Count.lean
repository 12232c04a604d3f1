import Verif.Proofs.Late
import Verif.Proofs.Both
import Verif.Proofs.Ends

/-!
# How many sources a decoder knows
-/

set_option linter.unusedSectionVars false

namespace Netcode

open OMap

variable {w : Nat}

/-- The sources are found under their identifiers. -/
structure Filed (s : Dec) : Prop where
  sorted : SortedKeys s.sources
  id : ∀ k v, s.sources.get? k = some v → v.id = k

/-- What was handed over since is held; nothing was dropped. -/
structure StillHeld (s s' : Dec) : Prop where
  ids : ∀ x ∈ s'.handed, x ∈ s.handed ∨ x ∈ s'.sources.keys
  grow : Grow s s'
  mode : s'.inOrder = false
  filed : Filed s'

theorem Filed.of_eq {s s' : Dec} (h : Filed s) (e : s'.sources = s.sources) : Filed s' :=
  ⟨by rw [e]; exact h.sorted, by rw [e]; exact h.id⟩

theorem get?_emplace_id {m : OMap DSource} {src v : DSource} {k : Nat} (hs : SortedKeys m) (hm : ∀ k x, m.get? k = some x → x.id = k)
    (h : (m.emplace src.id src).get? k = some v) : v.id = k := by
  by_cases hk : src.id ∈ m.keys
  · rw [emplace_of_mem m hs _ _ hk] at h
    exact hm _ _ h
  · have hmem := mem_of_get? h
    rcases (mem_emplace m _ _ hk _).1 hmem with he | he
    · cases he; rfl
    · exact hm _ _ (get?_of_mem hs he)

theorem Filed.emplace {s s' : Dec} (h : Filed s) (src : DSource) (e : s'.sources = s.sources.emplace src.id src) : Filed s' :=
  ⟨by rw [e]; exact sorted_emplace _ h.sorted _ _, by rw [e]; exact fun k v hv => get?_emplace_id h.sorted h.id hv⟩

theorem StillHeld.refl {s : Dec} (h : s.inOrder = false) (hf : Filed s) : StillHeld s s := ⟨fun _ h => Or.inl h, Grow.refl s, h, hf⟩

theorem StillHeld.trans {a b c : Dec} (h : StillHeld a b) (g : StillHeld b c) : StillHeld a c := by
  refine ⟨fun x hx => ?_, h.grow.trans g.grow, g.mode, g.filed⟩
  rcases g.ids x hx with hx | hx
  · rcases h.ids x hx with hx | hx
    · exact Or.inl hx
    · exact Or.inr (g.grow.keys x hx)
  · exact Or.inr hx

theorem StillHeld.pre' {s0 s s' : Dec} (h : StillHeld s0 s') (h1 : s0.sources = s.sources) (h2 : s0.log = s.log) : StillHeld s s' :=
  ⟨by have := h.ids; unfold Dec.handed at this ⊢; rw [← h2]; exact this, h.grow.pre' h1 h2, h.mode, h.filed⟩

theorem StillHeld.post {s s1 s' : Dec} (h : StillHeld s s1) (h1 : s'.sources = s1.sources) (h2 : s'.log = s1.log)
    (h3 : s'.inOrder = s1.inOrder) : StillHeld s s' :=
  ⟨by have := h.ids; unfold Dec.handed at this ⊢; rw [h1, h2]; exact this, h.grow.post h1 h2, h3.trans h.mode, h.filed.of_eq h1⟩

theorem add_scan_kept (gf : GF w) (dbg : Bool) (fuel : Nat) :
    (∀ src s s', s.inOrder = false → Filed s → addSource gf dbg fuel src s = .ok s' → StillHeld s s') ∧
    (∀ k s s', s.inOrder = false → Filed s → scanMissing gf dbg fuel k s = .ok s' → StillHeld s s') := by
  induction fuel with
  | zero =>
    constructor
    · intro src s s' _ _ h; unfold addSource at h; cases h
    · intro k s s' hio hf h
      cases k with
      | none => unfold scanMissing at h; cases h; exact StillHeld.refl hio hf
      | some k => unfold scanMissing at h; cases h
  | succ fuel ih =>
    constructor
    · intro src s s' hio hf h
      have hg := (add_scan_grow gf dbg (fuel + 1)).1 _ _ _ h
      unfold addSource at h
      rw [bind_ok_iff] at h
      obtain ⟨s1, h1, h⟩ := h
      rw [bind_ok_iff] at h
      obtain ⟨s2, h2, h⟩ := h
      obtain ⟨e1, e2⟩ := addSourceHead_hand hio h1
      have hm : s1.inOrder = false := (addSourceHead_ext h1).inOrder.trans hio
      have a2 := ih.2 _ _ _ hm (hf.of_eq e2) h2
      unfold addSourceTail at h
      rw [bind_ok_iff] at h
      obtain ⟨_, _, h⟩ := h
      simp only [a2.mode, Bool.false_and, Bool.false_eq_true, ↓reduceIte] at h
      cases h
      refine ⟨fun x hx => ?_, hg, rfl, a2.filed.emplace src rfl⟩
      have hx2 : x ∈ s2.handed := hx
      rcases a2.ids x hx2 with hx1 | hx1
      · unfold Dec.handed at hx1
        rw [e1] at hx1
        simp only [List.map_append, List.map_cons, List.map_nil, List.mem_append, List.mem_singleton] at hx1
        rcases hx1 with hx1 | hx1
        · exact Or.inl hx1
        · exact Or.inr ((mem_keys_emplace _ _ _ _).2 (Or.inl hx1))
      · exact Or.inr ((mem_keys_emplace _ _ _ _).2 (Or.inr hx1))
    · intro k s s' hio hf h
      cases k with
      | none => unfold scanMissing at h; cases h; exact StillHeld.refl hio hf
      | some k =>
        unfold scanMissing at h
        split at h
        · cases h
        · split at h
          · cases h
          · split at h
            · rw [bind_ok_iff] at h
              obtain ⟨_, _, h⟩ := h
              rw [bind_ok_iff] at h
              obtain ⟨_, _, h⟩ := h
              rw [bind_ok_iff] at h
              obtain ⟨src, _, h⟩ := h
              simp only at h
              rw [bind_ok_iff] at h
              obtain ⟨s1, h1, h⟩ := h
              have a1 := ih.1 _ _ _ (by exact hio) (by exact hf.of_eq rfl) h1
              exact StillHeld.trans (StillHeld.pre' (s := s) a1 rfl rfl) (ih.2 _ _ _ a1.mode a1.filed h)
            · exact ih.2 _ _ _ hio hf h
        · exact ih.2 _ _ _ hio hf h

theorem insertDecoded_kept {dbg : Bool} {src : DSource} {s s' : Dec} (hio : s.inOrder = false) (hf : Filed s)
    (h : s.insertDecoded dbg src = .ok s') : StillHeld s s' := by
  have hg' := insertDecoded_grow h
  unfold Dec.insertDecoded at h
  rw [bind_ok_iff] at h
  obtain ⟨_, _, h⟩ := h
  simp only at h
  split at h
  · cases h
  · rename_i v hv
    have hg : ∀ u : Dec, u.inOrder = false → Dec.giveDecoded dbg v u = .ok (u.callback v) := by
      intro u hu; unfold Dec.giveDecoded; rw [hu]; rfl
    rw [hg _ (by exact hio)] at h
    cases h
    refine ⟨fun x hx => ?_, hg', hio, hf.emplace src rfl⟩
    simp only [Dec.handed, Dec.callback, List.map_append, List.map_cons, List.map_nil, List.mem_append, List.mem_singleton] at hx
    rcases hx with hx | rfl
    · exact Or.inl hx
    · refine Or.inr ?_
      rw [get?_emplace_id hf.sorted hf.id hv]
      exact (mem_keys_emplace _ _ _ _).2 (Or.inl rfl)

theorem decodeLoop_kept (gf : GF w) (dbg : Bool) (inv : Mat w) (reps : List DRepair) (l : List Nat) (col : Nat)
    (s s' : Dec) (hio : s.inOrder = false) (hf : Filed s) (h : decodeLoop gf dbg inv reps col l s = .ok s') : StillHeld s s' := by
  induction l generalizing col s with
  | nil => unfold decodeLoop at h; cases h; exact StillHeld.refl hio hf
  | cons x t ih =>
    unfold decodeLoop at h
    rw [bind_ok_iff] at h
    obtain ⟨_, _, h⟩ := h
    rw [bind_ok_iff] at h
    obtain ⟨s1, h1, h⟩ := h
    have a1 := insertDecoded_kept hio hf h1
    exact a1.trans (ih _ _ a1.mode a1.filed h)

theorem fullDecode_kept {gf : GF w} {dbg : Bool} {s s' : Dec} (hio : s.inOrder = false) (hf : Filed s)
    (h : s.fullDecode gf dbg = .ok s') : StillHeld s s' := by
  unfold Dec.fullDecode at h
  split at h
  · cases h; exact StillHeld.refl hio hf
  split at h
  · cases h; exact StillHeld.refl hio hf
  rw [bind_ok_iff] at h
  obtain ⟨_, _, h⟩ := h
  rw [bind_ok_iff] at h
  obtain ⟨_, _, h⟩ := h
  rw [bind_ok_iff] at h
  obtain ⟨_, _, h⟩ := h
  split at h
  · split at h
    · cases h
    · rw [bind_ok_iff] at h
      obtain ⟨_, _, h⟩ := h
      cases h
      exact (StillHeld.refl hio hf).post rfl rfl rfl
  · simp only at h
    rw [bind_ok_iff] at h
    obtain ⟨s1, h1, h⟩ := h
    cases h
    exact (decodeLoop_kept _ _ _ _ _ _ _ _ hio hf h1).post rfl rfl rfl

/-- What a packet made a decoder hand over is held. -/
theorem onSource_kept {gf : GF w} {dbg : Bool} {s s' : Dec} {src : DSource} (hio : s.inOrder = false) (hf : Filed s)
    (h : s.onSource gf dbg src = .ok s') : ∀ x ∈ s'.handed, x ∈ s.handed ∨ x ∈ s'.sources.keys := by
  unfold Dec.onSource at h
  split at h
  · cases h; exact fun _ h => Or.inl h
  · split at h
    · cases h; exact fun _ h => Or.inl h
    · rw [bind_ok_iff] at h
      obtain ⟨s1, e1, h⟩ := h
      have a1 := (add_scan_kept gf dbg _).1 _ _ _ hio hf e1
      exact (a1.trans (fullDecode_kept a1.mode a1.filed h)).ids

theorem dropOutdated_unord {dbg : Bool} {id : Nat} {s s' : Dec} (hio : s.inOrder = false) (h : s.dropOutdated dbg id = .ok s') :
    s'.log = s.log ∧ s'.sources = s.sources.eraseBelow id := by
  unfold Dec.dropOutdated at h
  simp only [bind_ok_iff] at h
  obtain ⟨s1, h1, s2, h2, h⟩ := h
  have e1 := dropRepairs_src _ _ _ _ _ h1
  have e3 := (dropRepairs_ext _ _ _ _ _ h1).inOrder
  unfold Dec.giveAllOutdated at h2
  rw [e3, show ({ s with lastId := some id } : Dec).inOrder = false from hio] at h2
  cases h2
  cases h
  exact ⟨e1.2.1, by show s1.sources.eraseBelow id = _; rw [e1.1]⟩

theorem onRepair_kept {gf : GF w} {dbg : Bool} {s s' : Dec} {r : DRepair} (hio : s.inOrder = false) (hf : Filed s)
    (h : s.onRepair gf dbg r = .ok s') : ∀ x ∈ s'.handed, x ∈ s.handed ∨ x ∈ s'.sources.keys := by
  unfold Dec.onRepair at h
  rw [bind_ok_iff] at h
  obtain ⟨_, _, h⟩ := h
  split at h
  · split at h
    · cases h; exact fun _ h => Or.inl h
    split at h
    · cases h; exact fun _ h => Or.inl h
    rw [bind_ok_iff] at h
    obtain ⟨s1, h1, h⟩ := h
    obtain ⟨e1, e2⟩ := dropOutdated_unord hio h1
    have hm : s1.inOrder = false := (dropOutdated_ext h1).inOrder.trans hio
    have hf1 : Filed s1 := by
      refine ⟨by rw [e2]; exact sorted_eraseBelow hf.sorted _, fun k v hv => ?_⟩
      rw [e2] at hv
      rw [OMap.get?_eraseBelow] at hv
      split at hv
      · exact hf.id k v hv
      · cases hv
    have hh : s1.handed = s.handed := by unfold Dec.handed; rw [e1]
    have key : StillHeld s1 s' → ∀ x ∈ s'.handed, x ∈ s.handed ∨ x ∈ s'.sources.keys := by
      intro hk x hx
      rw [← hh]; exact hk.ids x hx
    split at h
    · cases h; exact key ((StillHeld.refl hm hf1).post rfl rfl rfl)
    rw [bind_ok_iff] at h
    obtain ⟨_, _, h⟩ := h
    rw [bind_ok_iff] at h
    obtain ⟨⟨r', m⟩, _, h⟩ := h
    simp only at h
    rw [bind_ok_iff] at h
    obtain ⟨_, _, h⟩ := h
    split at h
    · rw [bind_ok_iff] at h
      obtain ⟨src, _, h⟩ := h
      exact key (StillHeld.pre' ((add_scan_kept gf dbg _).1 _ _ _ (by exact hm) (by exact hf1.of_eq rfl) h) rfl rfl)
    · exact key (StillHeld.pre' (fullDecode_kept (by exact hm) (by exact hf1.of_eq rfl) h) rfl rfl)
  · cases h


section
variable {c : Cfg w} {data : Nat → List Byte} {ems : List Em} {A : Set Nat} {ρ L : Nat} {W K : Set Nat} {s : Sys} {u : Dec}

theorem LateInv.filed (h : LateInv c data ems A ρ L W K s u) : Filed u := by
  refine ⟨h.inv.dinv.core.srcSorted, fun k v hv => ?_⟩
  rw [h.ord.like.same.sources] at hv
  exact (h.ord.src k v hv).1

/-- What the other decoder hands over in a step, it holds. -/
theorem LateInv.step_kept (h : LateInv c data ems A ρ L W K s u) {a : Act} {s1 : Sys} (h1 : (s.hyb u).step c a = .ok s1) :
    ∀ x ∈ s1.dec.det.handed, x ∈ u.handed ∨ x ∈ s1.dec.det.sources.keys := by
  by_cases hdel : ∃ i, a = .deliver i
  · obtain ⟨i, rfl⟩ := hdel
    simp only [Sys.step] at h1
    split at h1
    · cases h1; exact fun x hx => Or.inl hx
    · rename_i p _
      simp only [bind_ok_iff] at h1
      obtain ⟨⟨d, x⟩, hn, h1⟩ := h1
      cases h1
      show ∀ x ∈ d.det.handed, x ∈ u.handed ∨ x ∈ d.det.sources.keys
      have hm : u.inOrder = false := h.ord.like.mode
      cases notify_got hn with
      | other g1 g2 =>
        have hp : p.bytes ≠ [] := fun e => by rw [e] at hn; exact notify_nil _ _ _ _ _ hn
        rw [NDec.notify_of_other c.gf c.dbg c.clk _ hp (fun e => g2 (head_of_type e)) (fun e => g1 (head_of_type e))] at hn
        cases hn
        exact fun x hx => Or.inl hx
      | badSource g1 g2 =>
        rw [NDec.notify_of_source _ _ _ _ (by rw [type_of_head g1]; rfl), g2] at hn
        cases hn
        exact fun x hx => Or.inl hx
      | badRepair g1 g2 =>
        rw [NDec.notify_of_repair _ _ _ _ (by rw [type_of_head g1]; rfl), g2] at hn
        cases hn
        exact fun x hx => Or.inl hx
      | source sr n det' g1 g2 ho =>
        have hdet : ((s.hyb u).dec.gotSource.afterDet c.clk det').det = det' := afterDet_det (onSource_ext ho).log
        rw [hdet]
        exact onSource_kept (s := u) hm h.filed ho
      | repair rr n det' g1 g2 ho =>
        have hdet : ((s.hyb u).dec.gotRepair.afterDet c.clk det').det = det' := afterDet_det (onRepair_ext ho).log
        rw [hdet]
        exact onRepair_kept (s := u) hm h.filed ho
  · obtain ⟨s2, g1, rfl, _⟩ := step_hyb a (fun i e => hdel ⟨i, e⟩) h.ord.like.same.sources h1
    exact fun x hx => Or.inl hx

theorem decCall_one (s : Sys) (a : Act) : a.decCall s = [] ∨ ∃ b, a.decCall s = [b] := by
  cases a with
  | deliver i => simp only [Act.decCall]; cases s.enc.out[i]? <;> simp
  | _ => simp [Act.decCall]

theorem nbFresh_one (gf : GF w) (dbg : Bool) (clk : Clock) (d : NDec) (b : DAct) : nbFresh gf dbg clk d [b] = d.freshBy b := by
  unfold nbFresh
  cases d.act gf dbg clk b <;> simp [nbFresh]

theorem nbFresh_append (gf : GF w) (dbg : Bool) (clk : Clock) (l1 l2 : List DAct) (d d' : NDec) (h : d.after gf dbg clk l1 = .ok d') :
    nbFresh gf dbg clk d (l1 ++ l2) = nbFresh gf dbg clk d l1 + nbFresh gf dbg clk d' l2 := by
  induction l1 generalizing d with
  | nil => cases h; simp [nbFresh]
  | cons a t ih =>
    obtain ⟨d1, h1, h2⟩ := after_cons.1 h
    simp only [List.cons_append, nbFresh, h1]
    rw [ih d1 h2]
    omega

theorem freshBy_like {d e : NDec} (h1 : d.det.sources = e.det.sources) (h2 : d.det.lastId = e.det.lastId) (b : DAct) :
    d.freshBy b = e.freshBy b := by
  cases b with
  | packet p =>
    have : d.Fresh p = e.Fresh p := by
      unfold NDec.Fresh
      cases readSource p with
      | error x => rfl
      | ok x => rw [decide_eq_decide]; simp only [Dec.Outdated, Dec.Holds, h1, h2]
    simp only [NDec.freshBy, this]
  | _ => rfl

/-- What the other decoder handed over in a step: the fresh sources and those decoded. -/
theorem LateInv.step_count (h : LateInv c data ems A ρ L W K s u) {a : Act} {s1 : Sys} (h1 : (s.hyb u).step c a = .ok s1) :
    s1.dec.det.log.length + u.nbDecoded =
      u.log.length + s1.dec.det.nbDecoded + nbFresh c.gf c.dbg c.clk s.dec (a.decCall s) := by
  obtain ⟨_, g, _⟩ := (step_ends (c := c) (s.hyb u) a).1 s1 h1
  have := (after_counters _ _ _ g).2.2.2 h.ord.like.mode
  rw [show a.decCall (s.hyb u) = a.decCall s by cases a <;> rfl] at this
  rw [show (s.hyb u).dec.det = u from rfl] at this
  rw [this]
  congr 1
  rcases decCall_one s a with e | ⟨b, e⟩
  · rw [e]; rfl
  · rw [e, nbFresh_one, nbFresh_one]
    exact freshBy_like h.ord.like.same.sources h.ord.like.same.lastId b

/-- The other decoder handed over nothing that this one lost. -/
def Lossless (c : Cfg w) (data : Nat → List Byte) (s : Sys) (u : Dec) : Prop :=
  (∃ ems A ρ L W K, SysInv c true data ems A ρ L W K s) ∧ ∀ x ∈ u.handed, x ∈ s.dec.det.handed ∨ x ∈ s.dec.det.sources.keys

theorem SysInv.known_split (h : SysInv c true data ems A ρ L W K s) {x : Nat} (hx : x ∈ K) :
    x ∈ s.dec.det.handed ∨ x ∈ s.dec.det.ordered := by
  obtain ⟨ho, _⟩ := h.dinv.log.ord h.io
  by_cases hl : x < s.dec.det.firstMissing
  · exact Or.inl ((ho.logMem x).2 ⟨hx, hl⟩)
  · exact Or.inr ((ho.ordMem x).2 ⟨hx, by omega⟩)

theorem run_count [Fact (0 < w)] (hc : c.Ok) (late : Bool) (acts : List Act) : ∀ (s : Sys) (u : Dec) (ems : List Em) (A : Set Nat) (ρ L : Nat) (W K : Set Nat),
    LateInv c data ems A ρ L W K s u → (late = false → Lossless c data s u) → Agree data (s.committed ++ committedBy acts) →
    RunPermits c late s acts →
    ∃ s' u' ems' A' ρ' L' W' K', s.run c acts = .ok s' ∧ LateInv c data ems' A' ρ' L' W' K' s' u' ∧ (late = false → Lossless c data s' u') ∧
      u'.log.length + s.dec.det.nbDecoded =
        u.log.length + s'.dec.det.nbDecoded + nbFresh c.gf c.dbg c.clk s.dec (decCalls c s acts) := by
  induction acts with
  | nil =>
    intro s u ems A ρ L W K h hl _ _
    exact ⟨s, u, _, _, _, _, _, _, rfl, h, hl, by simp [decCalls, nbFresh]⟩
  | cons a t ih =>
    intro s u ems A ρ L W K h hl hag hp
    obtain ⟨hp1, hp2⟩ := hp
    have hag1 : Agree data s.committed := hag.prefix
    have hD : ∀ d, a = .commit d → data s.committed.length = d := by
      rintro d rfl
      exact hag _ d (by simp [committedBy])
    obtain ⟨s', u', new, A', ρ', L', W', K', h1, h2, _, _, s1, h3, h4⟩ := h.step' hc hag1 a hp1.toLate hD
    have hk := h.step_kept h3
    have hn := h.step_count h3
    rw [h4] at hk hn
    obtain ⟨_, g2, g3⟩ := (step_ends (c := c) s a).1 s' h1
    have hl' : late = false → Lossless c data s' u' := by
      intro e
      subst e
      obtain ⟨⟨ems1, A1, ρ1, L1, W1, K1, hI⟩, hl2⟩ := hl rfl
      obtain ⟨s'', _, _, _, _, _, K2, i1, hI2, _, hK⟩ := hI.step hc hag1 a hp1 hD
      rw [h1] at i1
      cases i1
      refine ⟨⟨_, _, _, _, _, _, hI2⟩, fun x hx => ?_⟩
      rcases hk x hx with hx | hx
      · have hxK : x ∈ K2 := by
          rcases hl2 x hx with hx | hx
          · exact hK (hI.handed_known hx)
          · exact hK (hI.dinv.core.src_keys x hx)
        rcases hI2.known_split hxK with hx | hx
        · exact Or.inl hx
        · exact Or.inr (h2.ord.ordSrc x hx)
      · rw [h2.ord.like.same.sources] at hx
        exact Or.inr hx
    have hag2 : Agree data (s'.committed ++ committedBy t) := by
      rw [g3, List.append_assoc, show committedBy [a] ++ committedBy t = committedBy (a :: t) by
        simp only [committedBy, ← List.filterMap_append, List.singleton_append]]
      exact hag
    obtain ⟨s3, u3, ems3, A3, ρ3, L3, W3, K3, r1, r2, r3, r4⟩ := ih s' u' _ _ _ _ _ _ h2 hl' hag2 (hp2 s' h1)
    refine ⟨s3, u3, ems3, A3, ρ3, L3, W3, K3, ?_, r2, r3, ?_⟩
    · simp only [Sys.run, List.foldlM_cons, h1]; exact r1
    · have e1 := h.ord.like.same.dec
      have e2 := h2.ord.like.same.dec
      have e3 : decCalls c s (a :: t) = a.decCall s ++ decCalls c s' t := by simp only [decCalls, h1]
      rw [e3, nbFresh_append _ _ _ _ _ _ _ g2]
      omega

end

end Netcode
