import Verif.Spec.DecHist
import Verif.Proofs.DecMode
import Verif.Proofs.Notify
import Verif.Proofs.SysInv

/-!
# Histories of a decoder fed with arbitrary packets
-/

set_option linter.unusedSectionVars false

namespace Netcode

open OMap

variable {w : Nat}

/-! ## Sources held when the callback is called -/

/-- Sources are only added; the callback sees sources that are held at the end. -/
structure Grow (s s' : Dec) : Prop where
  keys : ∀ x ∈ s.sources.keys, x ∈ s'.sources.keys
  held : ∀ ev ∈ s'.log.drop s.log.length, ∀ x ∈ ev.held, x ∈ s'.sources.keys
  pre : s.log <+: s'.log

theorem Grow.refl (s : Dec) : Grow s s := ⟨fun _ h => h, by simp, List.prefix_refl _⟩

theorem drop_split {α : Type} {a b c : List α} (h1 : a <+: b) (h2 : b <+: c) :
    c.drop a.length = b.drop a.length ++ c.drop b.length := by
  obtain ⟨u, rfl⟩ := h1
  obtain ⟨v, rfl⟩ := h2
  simp

theorem Grow.trans {a b c : Dec} (h : Grow a b) (g : Grow b c) : Grow a c := by
  refine ⟨fun x hx => g.keys x (h.keys x hx), ?_, h.pre.trans g.pre⟩
  intro ev hev x hx
  rw [drop_split h.pre g.pre, List.mem_append] at hev
  rcases hev with hev | hev
  · exact g.keys x (h.held ev hev x hx)
  · exact g.held ev hev x hx

/-- Same sources, same log. -/
theorem Grow.same {s s' : Dec} (h1 : s'.sources = s.sources) (h2 : s'.log = s.log) : Grow s s' :=
  ⟨by rw [h1]; exact fun _ h => h, by rw [h2]; simp, by rw [h2]⟩

/-- Change of the fields that do not matter. -/
theorem Grow.pre' {s0 s s' : Dec} (h : Grow s0 s') (h1 : s0.sources = s.sources) (h2 : s0.log = s.log) : Grow s s' :=
  (Grow.same (s := s) (s' := s0) h1 h2).trans h

theorem Grow.post {s s1 s' : Dec} (h : Grow s s1) (h1 : s'.sources = s1.sources) (h2 : s'.log = s1.log) : Grow s s' :=
  h.trans (Grow.same h1 h2)

theorem grow_callback (s : Dec) (src : DSource) : Grow s (s.callback src) := by
  refine ⟨fun _ h => h, ?_, List.prefix_append _ _⟩
  intro ev hev x hx
  simp [Dec.callback] at hev
  subst hev
  exact hx

theorem callbackOrdered_grow {s s' : Dec} {id : Nat} (h : s.callbackOrdered id = .ok s') : Grow s s' := by
  unfold Dec.callbackOrdered at h
  split at h
  · cases h
  · cases h; exact grow_callback _ _

theorem flushLoop_grow (dbg : Bool) (l : List Nat) (s s' : Dec) (h : flushLoop dbg l s = .ok s') : Grow s s' := by
  induction l generalizing s with
  | nil => cases h; exact Grow.refl _
  | cons id rest ih =>
    unfold flushLoop at h
    rw [bind_ok_iff] at h
    obtain ⟨_, _, h⟩ := h
    rw [bind_ok_iff] at h
    obtain ⟨s1, h1, h⟩ := h
    have e1 := callbackOrdered_grow h1
    have e2 : Grow s { s1 with ordered := s1.ordered.erase id, firstMissing := (s1.firstMissing + 1) % 2 ^ 32 } :=
      e1.post rfl rfl
    cases rest with
    | nil => cases h; exact e2
    | cons nxt t =>
      simp only at h
      split at h
      · cases h; exact e2
      · exact e2.trans (ih _ h)

theorem flush_grow {dbg : Bool} {s s' : Dec} (h : s.flush dbg = .ok s') : Grow s s' := by
  unfold Dec.flush at h
  split at h
  · exact flushLoop_grow _ _ _ _ h
  · cases h; exact Grow.refl _

theorem removeFromAll_grow (gf : GF w) (dbg : Bool) (src : DSource) (l : List Nat) (s s' : Dec)
    (h : removeFromAll gf dbg src l s = .ok s') : Grow s s' := by
  induction l generalizing s with
  | nil => cases h; exact Grow.refl _
  | cons rid t ih =>
    unfold removeFromAll at h
    split at h
    · cases h
    · rw [bind_ok_iff] at h
      obtain ⟨r', _, h⟩ := h
      exact (ih _ h).pre' rfl rfl

theorem giveNew_grow {dbg : Bool} {src : DSource} {s s' : Dec} (h : s.giveNew dbg src = .ok s') : Grow s s' := by
  unfold Dec.giveNew at h
  split at h
  · cases h; exact grow_callback _ _
  · split at h
    · exact (grow_callback s src).trans ((flush_grow h).pre' rfl rfl)
    · cases h; exact Grow.refl _

theorem addSourceHead_grow {gf : GF w} {dbg : Bool} {src : DSource} {s s' : Dec}
    (h : addSourceHead gf dbg src s = .ok s') : Grow s s' := by
  unfold addSourceHead at h
  rw [bind_ok_iff] at h
  obtain ⟨s1, h1, h⟩ := h
  have e1 := giveNew_grow h1
  split at h
  · cases h; exact e1
  · rw [bind_ok_iff] at h
    obtain ⟨s2, h2, h⟩ := h
    cases h
    exact (e1.trans (removeFromAll_grow _ _ _ _ _ _ h2)).post rfl rfl

theorem emplace_grow (s : Dec) (src : DSource) : Grow s { s with sources := s.sources.emplace src.id src } :=
  ⟨fun x hx => (mem_keys_emplace _ _ _ _).2 (Or.inr hx), by simp, List.prefix_refl _⟩

theorem addSourceTail_grow {dbg : Bool} {src : DSource} {s s' : Dec} (h : addSourceTail dbg src s = .ok s') :
    Grow s s' := by
  unfold addSourceTail at h
  rw [bind_ok_iff] at h
  obtain ⟨_, _, h⟩ := h
  simp only at h
  split at h <;> (cases h; exact (emplace_grow s src).post rfl rfl)

theorem add_scan_grow (gf : GF w) (dbg : Bool) (fuel : Nat) :
    (∀ src s s', addSource gf dbg fuel src s = .ok s' → Grow s s') ∧
    (∀ k s s', scanMissing gf dbg fuel k s = .ok s' → Grow s s') := by
  induction fuel with
  | zero =>
    constructor
    · intro src s s' h; unfold addSource at h; cases h
    · intro k s s' h
      cases k with
      | none => unfold scanMissing at h; cases h; exact Grow.refl _
      | some k => unfold scanMissing at h; cases h
  | succ fuel ih =>
    constructor
    · intro src s s' h
      unfold addSource at h
      rw [bind_ok_iff] at h
      obtain ⟨s1, h1, h⟩ := h
      rw [bind_ok_iff] at h
      obtain ⟨s2, h2, h⟩ := h
      exact ((addSourceHead_grow h1).trans (ih.2 _ _ _ h2)).trans (addSourceTail_grow h)
    · intro k s s' h
      cases k with
      | none => unfold scanMissing at h; cases h; exact Grow.refl _
      | some k =>
        unfold scanMissing at h
        split at h
        · cases h
        · split at h
          · cases h
          · split at h
            · rw [bind_ok_iff] at h
              obtain ⟨_, _, h⟩ := h
              rw [bind_ok_iff] at h
              obtain ⟨_, _, h⟩ := h
              rw [bind_ok_iff] at h
              obtain ⟨src, _, h⟩ := h
              simp only at h
              rw [bind_ok_iff] at h
              obtain ⟨s1, h1, h⟩ := h
              exact Grow.trans (Grow.pre' (s := s) (ih.1 _ _ _ h1) rfl rfl) (ih.2 _ _ _ h)
            · exact ih.2 _ _ _ h
        · exact ih.2 _ _ _ h

theorem dropRepairs_grow (dbg : Bool) (id : Nat) (l : OMap DRepair) (s s' : Dec)
    (h : dropRepairs dbg id l s = .ok s') : Grow s s' := by
  induction l generalizing s with
  | nil => cases h; exact Grow.refl _
  | cons p t ih =>
    obtain ⟨rid, r⟩ := p
    unfold dropRepairs at h
    rw [bind_ok_iff] at h
    obtain ⟨_, _, h⟩ := h
    split at h
    · cases h
    · split at h
      · rw [bind_ok_iff] at h
        obtain ⟨_, _, h⟩ := h
        rw [bind_ok_iff] at h
        obtain ⟨m, _, h⟩ := h
        exact (ih _ h).pre' rfl rfl
      · exact ih _ h

theorem giveOutdated_grow (l : List Nat) (s s' : Dec) (h : giveOutdated l s = .ok s') : Grow s s' := by
  induction l generalizing s with
  | nil => cases h; exact Grow.refl _
  | cons k t ih =>
    unfold giveOutdated at h
    rw [bind_ok_iff] at h
    obtain ⟨s1, h1, h⟩ := h
    exact (callbackOrdered_grow h1).trans ((ih _ h).pre' rfl rfl)

theorem dropRepairs_src (dbg : Bool) (id : Nat) (l : OMap DRepair) (s s' : Dec)
    (h : dropRepairs dbg id l s = .ok s') : s'.sources = s.sources ∧ s'.log = s.log ∧ s'.ordered = s.ordered := by
  induction l generalizing s with
  | nil => cases h; exact ⟨rfl, rfl, rfl⟩
  | cons p t ih =>
    obtain ⟨rid, r⟩ := p
    unfold dropRepairs at h
    rw [bind_ok_iff] at h
    obtain ⟨_, _, h⟩ := h
    split at h
    · cases h
    · split at h
      · rw [bind_ok_iff] at h
        obtain ⟨_, _, h⟩ := h
        rw [bind_ok_iff] at h
        obtain ⟨m, _, h⟩ := h
        have := ih _ h
        exact this
      · exact ih _ h

theorem keys_eraseBelow {V : Type} (m : OMap V) (k x : Nat) (h : x ∈ (m.eraseBelow k).keys) : x ∈ m.keys := by
  obtain ⟨p, hp, rfl⟩ := List.mem_map.1 h
  exact List.mem_map.2 ⟨p, (List.mem_filter.1 hp).1, rfl⟩

theorem dropOutdated_held {dbg : Bool} {id : Nat} {s s' : Dec} (h : s.dropOutdated dbg id = .ok s') :
    (∀ x ∈ s'.sources.keys, x ∈ s.sources.keys) ∧
    (∀ ev ∈ s'.log.drop s.log.length, ∀ x ∈ ev.held, x ∈ s.sources.keys) ∧ s.log <+: s'.log := by
  have hp := (dropOutdated_ext h).log
  unfold Dec.dropOutdated at h
  simp only at h
  rw [bind_ok_iff] at h
  obtain ⟨s1, h1, h⟩ := h
  rw [bind_ok_iff] at h
  obtain ⟨s2, h2, h⟩ := h
  cases h
  obtain ⟨a, b, _⟩ := dropRepairs_src _ _ _ _ _ h1
  simp only at a b
  have c := (giveAllOutdated_C h2).sources
  have g : Grow s1 s2 := by
    unfold Dec.giveAllOutdated at h2
    split at h2
    · rw [bind_ok_iff] at h2
      obtain ⟨s3, h3, h2⟩ := h2
      exact (giveOutdated_grow _ _ _ h3).trans ((flush_grow h2).pre' rfl rfl)
    · cases h2; exact Grow.refl _
  refine ⟨fun x hx => ?_, fun ev hev x hx => ?_, hp⟩
  · have := keys_eraseBelow _ _ _ hx
    rw [c, a] at this; exact this
  · have := g.held ev (by rw [b]; exact hev) x hx
    rw [c, a] at this; exact this

theorem giveDecoded_grow {dbg : Bool} {src : DSource} {s s' : Dec} (h : s.giveDecoded dbg src = .ok s') : Grow s s' := by
  unfold Dec.giveDecoded at h
  split at h
  · cases h; exact grow_callback _ _
  · split at h
    · exact (grow_callback s src).trans ((flush_grow h).pre' rfl rfl)
    · cases h; exact Grow.same rfl rfl

theorem insertDecoded_grow {dbg : Bool} {src : DSource} {s s' : Dec} (h : s.insertDecoded dbg src = .ok s') :
    Grow s s' := by
  unfold Dec.insertDecoded at h
  rw [bind_ok_iff] at h
  obtain ⟨_, _, h⟩ := h
  simp only at h
  split at h
  · cases h
  · exact (emplace_grow s src).trans (giveDecoded_grow h)

theorem decodeLoop_grow (gf : GF w) (dbg : Bool) (inv : Mat w) (reps : List DRepair) (l : List Nat) (col : Nat)
    (s s' : Dec) (h : decodeLoop gf dbg inv reps col l s = .ok s') : Grow s s' := by
  induction l generalizing col s with
  | nil => unfold decodeLoop at h; cases h; exact Grow.refl _
  | cons x t ih =>
    unfold decodeLoop at h
    rw [bind_ok_iff] at h
    obtain ⟨_, _, h⟩ := h
    rw [bind_ok_iff] at h
    obtain ⟨s1, h1, h⟩ := h
    exact (insertDecoded_grow h1).trans (ih _ _ h)

theorem fullDecode_grow {gf : GF w} {dbg : Bool} {s s' : Dec} (h : s.fullDecode gf dbg = .ok s') : Grow s s' := by
  unfold Dec.fullDecode at h
  split at h
  · cases h; exact Grow.refl _
  split at h
  · cases h; exact Grow.refl _
  rw [bind_ok_iff] at h
  obtain ⟨_, _, h⟩ := h
  rw [bind_ok_iff] at h
  obtain ⟨_, _, h⟩ := h
  rw [bind_ok_iff] at h
  obtain ⟨_, _, h⟩ := h
  split at h
  · split at h
    · cases h
    · rw [bind_ok_iff] at h
      obtain ⟨_, _, h⟩ := h
      cases h
      exact Grow.same rfl rfl
  · simp only at h
    rw [bind_ok_iff] at h
    obtain ⟨s1, h1, h⟩ := h
    cases h
    exact (decodeLoop_grow _ _ _ _ _ _ _ _ h1).post rfl rfl

theorem onSource_grow {gf : GF w} {dbg : Bool} {s s' : Dec} {src : DSource} (h : s.onSource gf dbg src = .ok s') :
    Grow s s' := by
  unfold Dec.onSource at h
  split at h
  · cases h; exact Grow.refl _
  · split at h
    · cases h; exact Grow.refl _
    · rw [bind_ok_iff] at h
      obtain ⟨s1, e1, h⟩ := h
      exact ((add_scan_grow gf dbg _).1 _ _ _ e1).trans (fullDecode_grow h)

/-- What the callback sees was held before or is held at the end. -/
theorem onRepair_held {gf : GF w} {dbg : Bool} {s s' : Dec} {r : DRepair} (h : s.onRepair gf dbg r = .ok s') :
    ∀ ev ∈ s'.log.drop s.log.length, ∀ x ∈ ev.held, x ∈ s.sources.keys ∨ x ∈ s'.sources.keys := by
  have fin : ∀ s1, (∀ ev ∈ s1.log.drop s.log.length, ∀ x ∈ ev.held, x ∈ s.sources.keys) → s.log <+: s1.log →
      Grow s1 s' → ∀ ev ∈ s'.log.drop s.log.length, ∀ x ∈ ev.held, x ∈ s.sources.keys ∨ x ∈ s'.sources.keys := by
    intro s1 h1 hp hg ev hev x hx
    rw [drop_split hp hg.pre, List.mem_append] at hev
    rcases hev with hev | hev
    · exact Or.inl (h1 ev hev x hx)
    · exact Or.inr (hg.held ev hev x hx)
  unfold Dec.onRepair at h
  rw [bind_ok_iff] at h
  obtain ⟨_, _, h⟩ := h
  split at h
  · split at h
    · cases h; simp
    split at h
    · cases h; simp
    rw [bind_ok_iff] at h
    obtain ⟨s1, h1, h⟩ := h
    obtain ⟨_, e2, e3⟩ := dropOutdated_held h1
    refine fin s1 e2 e3 ?_
    split at h
    · cases h; exact Grow.same rfl rfl
    rw [bind_ok_iff] at h
    obtain ⟨_, _, h⟩ := h
    rw [bind_ok_iff] at h
    obtain ⟨⟨r', m⟩, _, h⟩ := h
    simp only at h
    rw [bind_ok_iff] at h
    obtain ⟨_, _, h⟩ := h
    split at h
    · rw [bind_ok_iff] at h
      obtain ⟨src, _, h⟩ := h
      exact ((add_scan_grow gf dbg _).1 _ _ _ h).pre' rfl rfl
    · exact (fullDecode_grow h).pre' rfl rfl
  · cases h


/-! ## Acks -/

/-- What the sending of acks preserves. -/
structure AckStep (d d' : NDec) : Prop where
  src : d'.nbSources = d.nbSources
  rep : d'.nbRepairs = d.nbRepairs
  cnt : d'.nbAcks + d.out.length = d.nbAcks + d'.out.length
  sum : reported d'.out + d'.ackPackets = reported d.out + d.ackPackets
  ids : d.ackIds = [] → d'.ackIds = []
  nb : d'.ackNb = d.ackNb
  period : d'.ackPeriod = d.ackPeriod

theorem AckStep.refl (d : NDec) : AckStep d d := ⟨rfl, rfl, rfl, rfl, id, rfl, rfl⟩

theorem AckStep.trans {a b c : NDec} (h : AckStep a b) (g : AckStep b c) : AckStep a c :=
  ⟨g.src.trans h.src, g.rep.trans h.rep, by have := h.cnt; have := g.cnt; omega, g.sum.trans h.sum,
   fun e => g.ids (h.ids e), g.nb.trans h.nb, g.period.trans h.period⟩

theorem reported_snoc (l : List Ack) (a : Ack) : reported (l ++ [a]) = reported l + a.nbPackets := by
  simp [reported]

theorem generateAckWith_step (d : NDec) (held : List Nat) : AckStep d (d.generateAckWith held) := by
  refine ⟨rfl, rfl, ?_, ?_, fun _ => rfl, rfl, rfl⟩
  · simp [NDec.generateAckWith]; omega
  · simp [NDec.generateAckWith, reported_snoc]

theorem maybeAckWith_step (clk : Clock) (d : NDec) (held : List Nat) : AckStep d (d.maybeAckWith clk held) := by
  unfold NDec.maybeAckWith
  split
  · have := generateAckWith_step d held
    exact ⟨this.1, this.2, this.3, this.4, this.5, this.6, this.7⟩
  · split
    · simp only
      split
      · have := generateAckWith_step { d with ticks := d.ticks + 1 } held
        exact ⟨this.1, this.2, this.3, this.4, this.5, this.6, this.7⟩
      · exact ⟨rfl, rfl, rfl, rfl, id, rfl, rfl⟩
    · exact AckStep.refl _

theorem handleFold_step (clk : Clock) (evs : List Event) (d : NDec) :
    AckStep d (evs.foldl (NDec.handleSource clk) d) ∧ (evs.foldl (NDec.handleSource clk) d).det = d.det ∧
      (evs.foldl (NDec.handleSource clk) d).data = d.data ++ evs.map (·.data) := by
  induction evs generalizing d with
  | nil => exact ⟨AckStep.refl _, rfl, by simp⟩
  | cons ev t ih =>
    rw [List.foldl_cons]
    have h1 := maybeAckWith_step clk { d with data := d.data ++ [ev.data] } ev.held
    have h1' : AckStep d (NDec.handleSource clk d ev) := ⟨h1.1, h1.2, h1.3, h1.4, h1.5, h1.6, h1.7⟩
    have h2 := maybeAckWith_frame clk { d with data := d.data ++ [ev.data] } ev.held
    obtain ⟨a, b, c⟩ := ih (NDec.handleSource clk d ev)
    refine ⟨h1'.trans a, b.trans h2.1, ?_⟩
    rw [c, show (NDec.handleSource clk d ev).data = d.data ++ [ev.data] from h2.2]
    simp

theorem afterDet_step (clk : Clock) (d : NDec) (det' : Dec) (hp : d.det.log <+: det'.log) :
    AckStep d (d.afterDet clk det') ∧ (d.afterDet clk det').det = det' ∧
      (d.data = d.det.log.map (·.data) → (d.afterDet clk det').data = det'.log.map (·.data)) := by
  obtain ⟨t, ht⟩ := hp
  have hdrop : det'.log.drop d.det.log.length = t := by rw [← ht]; simp
  obtain ⟨a, b, c⟩ := handleFold_step clk t { d with det := det' }
  unfold NDec.afterDet
  rw [hdrop]
  refine ⟨⟨a.1, a.2, a.3, a.4, a.5, a.6, a.7⟩, b, fun hd => ?_⟩
  rw [c, ← ht]
  simp [hd]

/-! ## One packet -/

theorem type_of_head {p : List Byte} {ty : Byte} (h : p.head? = some ty) :
    getPacketType p = if ty = 0#8 then .ok .ack else if ty = 1#8 then .ok .repair else if ty = 2#8 then .ok .source
      else .error (.cpp .packetType) := by
  cases p with
  | nil => cases h
  | cons a t => simp only [List.head?_cons, Option.some.injEq] at h; subst h; rfl

/-- The first byte of a packet of each type. -/
def PType.code : PType → Byte
  | .ack => 0#8
  | .repair => 1#8
  | .source => 2#8

theorem head_of_type {p : List Byte} {t : PType} (h : getPacketType p = .ok t) :
    p.head? = some t.code := by
  cases p with
  | nil => cases h
  | cons a u =>
    unfold getPacketType at h
    simp only at h
    split at h
    · rename_i e; cases h; rw [e]; rfl
    · split at h
      · rename_i e; cases h; rw [e]; rfl
      · split at h
        · rename_i e; cases h; rw [e]; rfl
        · cases h

/-- The empty packet is not handled. -/
theorem notify_nil (gf : GF w) (dbg : Bool) (clk : Clock) (d : NDec) (x : NDec × Except CppErr Nat) :
    d.notify gf dbg clk [] ≠ .ok x := by
  intro h
  unfold NDec.notify at h
  rw [bind_ok_iff] at h
  obtain ⟨_, _, h⟩ := h
  cases h

theorem not_fault {α : Type} {x : PM (α × Nat)} (h : (∃ a n, x = .ok (a, n) ∧ n ≤ k) ∨ x = .error (.cpp .overflow))
    (f : Fault) : x ≠ .error (.fault f) := by
  rcases h with ⟨a, n, h, _⟩ | h <;> rw [h] <;> simp

/-- What a packet does to the wrapper, by kind of packet. -/
inductive Got (gf : GF w) (dbg : Bool) (clk : Clock) (d : NDec) (p : List Byte) : NDec → Prop
  /-- not a source, not a repair -/
  | other : p.head? ≠ some 1#8 → p.head? ≠ some 2#8 → Got gf dbg clk d p d
  | badSource : p.head? = some 2#8 → readSource p = .error (.cpp .overflow) → Got gf dbg clk d p d.gotSource
  | badRepair : p.head? = some 1#8 → readRepair p = .error (.cpp .overflow) → Got gf dbg clk d p d.gotRepair
  | source (s : DSource) (n : Nat) (det' : Dec) : p.head? = some 2#8 → readSource p = .ok (s, n) →
      d.det.onSource gf dbg s = .ok det' → Got gf dbg clk d p (d.gotSource.afterDet clk det')
  | repair (r : DRepair) (n : Nat) (det' : Dec) : p.head? = some 1#8 → readRepair p = .ok (r, n) →
      d.det.onRepair gf dbg r = .ok det' → Got gf dbg clk d p (d.gotRepair.afterDet clk det')

theorem map_ok_iff {α β : Type} {x : Out α} {f : α → β} {b : β} : x.map f = .ok b ↔ ∃ a, x = .ok a ∧ f a = b := by
  cases x with
  | error e => simp [Except.map]
  | ok a => simp [Except.map]

theorem notify_got {gf : GF w} {dbg : Bool} {clk : Clock} {d d' : NDec} {p : List Byte} {r : Except CppErr Nat}
    (h : d.notify gf dbg clk p = .ok (d', r)) : Got gf dbg clk d p d' := by
  have hp : p ≠ [] := by rintro rfl; exact notify_nil _ _ _ _ _ h
  by_cases h2 : getPacketType p = .ok .source
  · have hh := head_of_type h2
    rw [NDec.notify_of_source gf dbg clk d h2] at h
    rcases readSource_total p with ⟨s, n, hr, _⟩ | hr
    · rw [hr] at h
      simp only [map_ok_iff] at h
      obtain ⟨det', h3, h4⟩ := h
      cases h4
      exact .source s n det' hh hr h3
    · rw [hr] at h
      cases h
      exact .badSource hh hr
  · by_cases h1 : getPacketType p = .ok .repair
    · have hh := head_of_type h1
      rw [NDec.notify_of_repair gf dbg clk d h1] at h
      rcases readRepair_total p with ⟨s, n, hr, _⟩ | hr
      · rw [hr] at h
        simp only [map_ok_iff] at h
        obtain ⟨det', h3, h4⟩ := h
        cases h4
        exact .repair s n det' hh hr h3
      · rw [hr] at h
        cases h
        exact .badRepair hh hr
    · rw [NDec.notify_of_other gf dbg clk d hp h2 h1] at h
      cases h
      refine .other (fun e => h1 ?_) (fun e => h2 ?_)
      · rw [type_of_head e]; rfl
      · rw [type_of_head e]; rfl

/-! ## Histories -/

/-- The invariant of the counters. -/
structure Counts (d : NDec) : Prop where
  acks : d.nbAcks = d.out.length
  ids : d.ackIds = []
  data : d.data = d.det.log.map (·.data)
  uses : d.det.nbDecoded + d.det.nbFailed + d.det.nbUseless + d.det.repairs.length ≤ d.nbRepairs
  sum : ∃ k, reported d.out + d.ackPackets + 65536 * k = d.nbSources + d.nbRepairs
  nb : d.ackNb ≤ 128

theorem counts_init (clk : Clock) (io : Bool) : Counts (NDec.init clk io) :=
  ⟨rfl, rfl, rfl, Nat.le_refl _, ⟨0, rfl⟩, by show 50 ≤ 128; decide⟩

theorem counts_ack {d d' : NDec} (h : Counts d) (g : AckStep d d') (h1 : d'.det = d.det) (h2 : d'.data = d.data) :
    Counts d' := by
  refine ⟨?_, g.ids h.ids, by rw [h2, h1]; exact h.data, by rw [h1, g.rep]; exact h.uses, ?_, by rw [g.nb]; exact h.nb⟩
  · have := g.cnt; have := h.acks; omega
  · obtain ⟨k, hk⟩ := h.sum
    exact ⟨k, by rw [g.sum, g.src, g.rep]; exact hk⟩

theorem mod_succ (a : Nat) : ∃ j, (a + 1) % 2 ^ 16 + 65536 * j = a + 1 :=
  ⟨(a + 1) / 65536, by have := Nat.mod_add_div (a + 1) 65536; simpa using this⟩

theorem Counts.gotSource {d : NDec} (h : Counts d) : Counts d.gotSource := by
  refine ⟨h.acks, h.ids, h.data, h.uses, ?_, h.nb⟩
  obtain ⟨k, hk⟩ := h.sum
  obtain ⟨j, hj⟩ := mod_succ d.ackPackets
  refine ⟨k + j, ?_⟩
  show reported d.out + (d.ackPackets + 1) % 2 ^ 16 + 65536 * (k + j) = d.nbSources + 1 + d.nbRepairs
  omega

theorem Counts.gotRepair {d : NDec} (h : Counts d) : Counts d.gotRepair := by
  refine ⟨h.acks, h.ids, h.data, ?_, ?_, h.nb⟩
  · exact Nat.le_trans h.uses (Nat.le_succ _)
  obtain ⟨k, hk⟩ := h.sum
  obtain ⟨j, hj⟩ := mod_succ d.ackPackets
  refine ⟨k + j, ?_⟩
  show reported d.out + (d.ackPackets + 1) % 2 ^ 16 + 65536 * (k + j) = d.nbSources + (d.nbRepairs + 1)
  omega

theorem Counts.afterDet {d : NDec} (clk : Clock) {det' : Dec} (h : Counts d) (hp : d.det.log <+: det'.log)
    (hu : det'.nbDecoded + det'.nbFailed + det'.nbUseless + det'.repairs.length ≤ d.nbRepairs) : Counts (d.afterDet clk det') := by
  obtain ⟨g, h1, h2⟩ := afterDet_step clk d det' hp
  refine ⟨?_, g.ids h.ids, by rw [h1]; exact h2 h.data, by rw [h1, g.rep]; exact hu, ?_, by rw [g.nb]; exact h.nb⟩
  · have := g.cnt; have := h.acks; omega
  · obtain ⟨k, hk⟩ := h.sum
    exact ⟨k, by rw [g.sum, g.src, g.rep]; exact hk⟩

theorem counts_act {gf : GF w} {dbg : Bool} {clk : Clock} {d d' : NDec} {a : DAct} (h : Counts d)
    (ha : d.act gf dbg clk a = .ok d') : Counts d' := by
  cases a with
  | packet p =>
    simp only [NDec.act, map_ok_iff] at ha
    obtain ⟨⟨d1, r⟩, h1, rfl⟩ := ha
    cases notify_got h1 with
    | other => exact h
    | badSource => exact h.gotSource
    | badRepair => exact h.gotRepair
    | source s n det' _ _ ho =>
      exact h.gotSource.afterDet clk (onSource_ext ho).log (Nat.le_trans (onSource_uses ho) h.uses)
    | repair s n det' _ _ ho =>
      refine h.gotRepair.afterDet clk (onRepair_ext ho).log (Nat.le_trans (onRepair_uses ho) ?_)
      have := h.uses
      show _ ≤ d.nbRepairs + 1
      omega
  | genAck =>
    cases ha
    exact counts_ack h (generateAckWith_step _ _) rfl rfl
  | maybeAck =>
    cases ha
    exact counts_ack h (maybeAckWith_step _ _ _) (maybeAckWith_frame _ _ _).1 (maybeAckWith_frame _ _ _).2
  | setAckNb n =>
    simp only [NDec.act, NDec.setAckNb, bind_ok_iff] at ha
    obtain ⟨_, _, ha⟩ := ha
    cases ha
    exact ⟨h.acks, h.ids, h.data, h.uses, h.sum, Nat.min_le_right _ _⟩
  | setAckPeriod ms =>
    cases ha
    exact ⟨h.acks, h.ids, h.data, h.uses, h.sum, h.nb⟩

theorem after_cons {gf : GF w} {dbg : Bool} {clk : Clock} {d d' : NDec} {a : DAct} {t : List DAct} :
    d.after gf dbg clk (a :: t) = .ok d' ↔ ∃ d1, d.act gf dbg clk a = .ok d1 ∧ d1.after gf dbg clk t = .ok d' := by
  unfold NDec.after
  rw [List.foldlM_cons, bind_ok_iff]

theorem nafter_induct {gf : GF w} {dbg : Bool} {clk : Clock} (P : NDec → Prop)
    (hstep : ∀ d d' a, P d → d.act gf dbg clk a = .ok d' → P d') (acts : List DAct) (d d' : NDec) (h0 : P d)
    (h : d.after gf dbg clk acts = .ok d') : P d' := by
  induction acts generalizing d with
  | nil => cases h; exact h0
  | cons a t ih =>
    obtain ⟨d1, h1, h2⟩ := after_cons.1 h
    exact ih d1 (hstep _ _ _ h0 h1) h2

theorem counts_after {gf : GF w} {dbg : Bool} {clk : Clock} {acts : List DAct} {d d' : NDec} (h : Counts d)
    (ha : d.after gf dbg clk acts = .ok d') : Counts d' :=
  nafter_induct Counts (fun _ _ _ h1 h2 => counts_act h1 h2) acts d d' h ha

/-- The counters after a call. -/
theorem act_counters {gf : GF w} {dbg : Bool} {clk : Clock} {d d' : NDec} {a : DAct}
    (ha : d.act gf dbg clk a = .ok d') :
    d'.nbSources = d.nbSources + nbOfType 2#8 [a] ∧ d'.nbRepairs = d.nbRepairs + nbOfType 1#8 [a] ∧
    d'.det.inOrder = d.det.inOrder ∧
    (d.det.inOrder = false → d'.det.log.length + d.det.nbDecoded = d.det.log.length + d'.det.nbDecoded +
      d.freshBy a) := by
  cases a with
  | packet p =>
    simp only [NDec.act, map_ok_iff] at ha
    obtain ⟨⟨d1, r⟩, h1, rfl⟩ := ha
    have nf : ∀ e, readSource p = .error e → d.Fresh p = false := by
      intro e he; unfold NDec.Fresh; rw [he]
    have nf2 : p.head? ≠ some 2#8 → d.Fresh p = false := by
      intro hne; unfold NDec.Fresh
      cases readSource p with
      | error e => rfl
      | ok x => simp [hne]
    cases notify_got h1 with
    | other g1 g2 => simp [nbOfType, g1, g2, nf2 g2, NDec.freshBy]
    | badSource g1 g2 => simp [nbOfType, g1, nf _ g2, NDec.gotSource, NDec.freshBy]
    | badRepair g1 g2 => simp [nbOfType, g1, nf2 (by rw [g1]; decide), NDec.gotRepair, NDec.freshBy]
    | source s n det' g1 g2 ho =>
      have e := onSource_ext ho
      obtain ⟨a1, a2, _⟩ := afterDet_step clk d.gotSource det' e.log
      refine ⟨?_, ?_, by rw [a2]; exact e.inOrder, fun hio => ?_⟩
      · rw [a1.src]; simp [nbOfType, g1, NDec.gotSource]
      · rw [a1.rep]; simp [nbOfType, g1, NDec.gotSource]
      · rw [a2, e.count hio]
        have : d.det.accepts s.id = d.Fresh p := by
          unfold NDec.Fresh Dec.accepts
          rw [g2]
          simp only [g1, Dec.Outdated, Dec.Holds]
          have hk := has_iff d.det.sources s.id
          change _ ↔ s.id ∈ d.det.sources.keys at hk
          rw [Bool.eq_iff_iff, decide_eq_true_eq, ← hk]
          cases hl : d.det.lastId with
          | none => cases hh : d.det.sources.has s.id <;> simp
          | some l => by_cases hlt : s.id < l <;> cases hh : d.det.sources.has s.id <;> simp [hlt]
        rw [this]; rfl
    | repair s n det' g1 g2 ho =>
      have e := onRepair_ext ho
      obtain ⟨a1, a2, _⟩ := afterDet_step clk d.gotRepair det' e.log
      refine ⟨?_, ?_, by rw [a2]; exact e.inOrder, fun hio => ?_⟩
      · rw [a1.src]; simp [nbOfType, g1, NDec.gotRepair]
      · rw [a1.rep]; simp [nbOfType, g1, NDec.gotRepair]
      · rw [a2, e.count hio]
        simp [NDec.freshBy, nf2 (by rw [g1]; decide)]
  | genAck => cases ha; exact ⟨rfl, rfl, rfl, fun _ => rfl⟩
  | maybeAck =>
    cases ha
    have g := maybeAckWith_step clk d d.det.sources.keys
    have e := (maybeAckWith_frame clk d d.det.sources.keys).1
    refine ⟨g.src, g.rep, ?_, fun _ => ?_⟩
    · show (d.maybeAckWith clk d.det.sources.keys).det.inOrder = _
      rw [e]
    · show (d.maybeAckWith clk d.det.sources.keys).det.log.length + _ = _ +
        (d.maybeAckWith clk d.det.sources.keys).det.nbDecoded + 0
      rw [e]; rfl
  | setAckNb n =>
    simp only [NDec.act, NDec.setAckNb, bind_ok_iff] at ha
    obtain ⟨_, _, ha⟩ := ha
    cases ha
    exact ⟨rfl, rfl, rfl, fun _ => rfl⟩
  | setAckPeriod ms => cases ha; exact ⟨rfl, rfl, rfl, fun _ => rfl⟩

theorem after_counters {gf : GF w} {dbg : Bool} {clk : Clock} (acts : List DAct) (d d' : NDec)
    (ha : d.after gf dbg clk acts = .ok d') :
    d'.nbSources = d.nbSources + nbOfType 2#8 acts ∧ d'.nbRepairs = d.nbRepairs + nbOfType 1#8 acts ∧
    d'.det.inOrder = d.det.inOrder ∧
    (d.det.inOrder = false →
      d'.det.log.length + d.det.nbDecoded = d.det.log.length + d'.det.nbDecoded + nbFresh gf dbg clk d acts) := by
  induction acts generalizing d with
  | nil => cases ha; exact ⟨rfl, rfl, rfl, fun _ => rfl⟩
  | cons a t ih =>
    obtain ⟨d1, h1, h2⟩ := after_cons.1 ha
    obtain ⟨a1, a2, a3, a4⟩ := act_counters h1
    obtain ⟨b1, b2, b3, b4⟩ := ih d1 h2
    have e : ∀ ty, nbOfType ty (a :: t) = nbOfType ty [a] + nbOfType ty t := by
      intro ty; cases a <;> simp [nbOfType]
    refine ⟨by rw [b1, a1, e]; omega, by rw [b2, a2, e]; omega, b3.trans a3, fun hio => ?_⟩
    have c1 := a4 hio
    have c2 := b4 (a3.trans hio)
    unfold nbFresh
    rw [h1]
    simp only
    omega

end Netcode
