import Verif.Spec.Multi
import Verif.Props.Late
import Verif.Proofs.Restart
import Verif.Props.Defects

/-!
# C86: one encoder and several decoders
-/

set_option linter.unusedSectionVars false

namespace Netcode

variable {w : Nat} {c : Cfg w} {clk : Nat → Clock} {late : Bool} {ios : List Bool} {acks : Nat → Prop} {m : Multi}

/-- Steps of the encoder alone are the same with all decoders. -/
theorem enc_step {c c' : Cfg w} (hg : c.gf = c'.gf) (hd : c.dbg = c'.dbg) {s t s' : Sys} {a : Act} (he : s.enc = t.enc)
    (hc : s.committed = t.committed) (h1 : ∀ i, a ≠ .deliver i) (h2 : ∀ j, a ≠ .ack j) (h3 : s.step c a = .ok s') :
    (s'.enc = s.enc ∧ s'.committed = s.committed) ∨
    (t.step c' a = .ok { t with enc := s'.enc, committed := s'.committed } ∧ (Permits c late s a → Permits c' late t a)) := by
  cases a with
  | deliver i => exact absurd rfl (h1 i)
  | ack j => exact absurd rfl (h2 j)
  | genAck => cases h3; exact .inl ⟨rfl, rfl⟩
  | maybeAck => cases h3; exact .inl ⟨rfl, rfl⟩
  | setAckPeriod ms => cases h3; exact .inl ⟨rfl, rfl⟩
  | setAckNb n =>
    simp only [Sys.step, bind_ok_iff, pure_ok_iff] at h3
    obtain ⟨d, -, rfl⟩ := h3
    exact .inl ⟨rfl, rfl⟩
  | commit d =>
    simp only [Sys.step, bind_ok_iff, pure_ok_iff] at h3 ⊢
    obtain ⟨e, h3, rfl⟩ := h3
    refine .inr ⟨⟨e, by rw [← he, ← hg, ← hd]; exact h3, by rw [← hc]⟩, ?_⟩
    cases late <;> simp only [Permits, AllowedLate, Allowed, he, hc] <;> exact id
  | repair =>
    simp only [Sys.step, bind_ok_iff, pure_ok_iff] at h3 ⊢
    obtain ⟨e, h3, rfl⟩ := h3
    refine .inr ⟨⟨e, by rw [← he, ← hg, ← hd]; exact h3, by rw [← hc]⟩, ?_⟩
    cases late <;> simp only [Permits, AllowedLate, Allowed, he, hc] <;> exact id
  | setRate n =>
    simp only [Sys.step, bind_ok_iff, pure_ok_iff] at h3 ⊢
    obtain ⟨e, h3, rfl⟩ := h3
    refine .inr ⟨⟨e, by rw [← he, ← hd]; exact h3, by rw [← hc]⟩, ?_⟩
    cases late <;> simp only [Permits, AllowedLate, Allowed] <;> exact id
  | setWindow n =>
    simp only [Sys.step, bind_ok_iff, pure_ok_iff] at h3 ⊢
    obtain ⟨e, h3, rfl⟩ := h3
    refine .inr ⟨⟨e, by rw [← he, ← hd]; exact h3, by rw [← hc]⟩, ?_⟩
    cases late <;> simp only [Permits, AllowedLate, Allowed] <;> exact id
  | setAdaptive b =>
    simp only [Sys.step, pure_ok_iff] at h3 ⊢
    subst h3
    refine .inr ⟨by rw [he, hc], ?_⟩
    cases late <;> simp only [Permits, AllowedLate, Allowed] <;> exact id
  | setSystematic b =>
    simp only [Sys.step, pure_ok_iff] at h3 ⊢
    subst h3
    refine .inr ⟨by rw [he, hc], ?_⟩
    cases late <;> simp only [Permits, AllowedLate, Allowed] <;> exact id

theorem reaches_init {io : Bool} : Reaches c late io (Sys.init c.clk io) := by
  cases late
  · exact Reach.init
  · exact ReachLate.init

theorem reaches_step {io : Bool} {s s' : Sys} {a : Act} (h : Reaches c late io s) (ha : Permits c late s a) (hs : s.step c a = .ok s') :
    Reaches c late io s' := by
  cases late
  · exact Reach.step h ha hs
  · exact ReachLate.step h ha hs

/-- **C86** (partial: the acks of no other decoder reach the encoder; see `C86_false`).  The encoder and a decoder are in a state that they
could have reached without the other decoders: all that is proved of one encoder and one decoder holds. -/
theorem C86_alone_partial {k : Nat} (hk : ∀ j, acks j → j = k) (h : MultiReach c clk late ios acks m) {s : Sys} (hs : m.view k = some s) :
    ∃ io, ios[k]? = some io ∧ Reaches { c with clk := clk k } late io s := by
  induction h generalizing s with
  | init =>
    unfold Multi.view Multi.init at hs
    simp only [List.getElem?_mapIdx, Option.map_map, Option.map_eq_some_iff, Function.comp] at hs
    obtain ⟨io, h1, rfl⟩ := hs
    exact ⟨io, h1, reaches_init (c := { c with clk := clk k })⟩
  | @step m m' j a s0 hr hv hp hack hst ih =>
    unfold Multi.step at hst
    simp only [hv, bind_ok_iff, pure_ok_iff] at hst
    obtain ⟨s1, h1, rfl⟩ := hst
    have hjlt : j < m.recv.length := by
      unfold Multi.view at hv
      rw [Option.map_eq_some_iff] at hv
      obtain ⟨r, h2, -⟩ := hv
      exact (List.getElem?_eq_some_iff.1 h2).1
    by_cases hjk : j = k
    · subst hjk
      obtain ⟨io, h2, h3⟩ := ih hv
      refine ⟨io, h2, ?_⟩
      have : s = s1 := by
        unfold Multi.view at hs
        simp only [List.getElem?_set_self hjlt, Option.map_some, Option.some.injEq] at hs
        exact hs.symm
      rw [this]
      exact reaches_step h3 hp h1
    · unfold Multi.view at hs
      simp only [List.getElem?_set_ne hjk, Option.map_eq_some_iff] at hs
      obtain ⟨r, h2, rfl⟩ := hs
      have hvk : m.view k = some { enc := m.enc, dec := r.dec, committed := m.committed, hist := r.hist, errs := r.errs } := by
        unfold Multi.view; rw [h2]; rfl
      obtain ⟨io, h3, h4⟩ := ih hvk
      refine ⟨io, h3, ?_⟩
      have e0 : s0.enc = m.enc ∧ s0.committed = m.committed := by
        unfold Multi.view at hv
        rw [Option.map_eq_some_iff] at hv
        obtain ⟨r', -, rfl⟩ := hv
        exact ⟨rfl, rfl⟩
      have same : s1.enc = s0.enc → s1.committed = s0.committed →
          Reaches { c with clk := clk k } late io { enc := s1.enc, dec := r.dec, committed := s1.committed, hist := r.hist, errs := r.errs } := by
        intro q1 q2
        rw [q1, q2, e0.1, e0.2]
        exact h4
      by_cases hdel : ∃ i, a = .deliver i
      · obtain ⟨i, rfl⟩ := hdel
        simp only [Sys.step] at h1
        split at h1
        · cases h1; exact same rfl rfl
        · simp only [bind_ok_iff, pure_ok_iff] at h1
          obtain ⟨d, -, rfl⟩ := h1
          exact same rfl rfl
      · by_cases hak : ∃ i, a = .ack i
        · obtain ⟨i, rfl⟩ := hak
          exact absurd (hk _ (hack i rfl)) hjk
        · rcases enc_step (late := late) (c := { c with clk := clk j }) (c' := { c with clk := clk k }) rfl rfl
            (t := { enc := m.enc, dec := r.dec, committed := m.committed, hist := r.hist, errs := r.errs }) e0.1 e0.2
            (fun i q => hdel ⟨i, q⟩) (fun i q => hak ⟨i, q⟩) h1 with ⟨q1, q2⟩ | ⟨q1, q2⟩
          · exact same q1 q2
          · exact reaches_step h4 (q2 hp) q1

/-- **C86** (partial, as above): what such a decoder hands over was committed. -/
theorem C86_integrity_partial (hc : c.Ok) {k : Nat} (hk : ∀ j, acks j → j = k) (h : MultiReach c clk late ios acks m) {s : Sys}
    (hs : m.view k = some s) : ∀ d ∈ s.dec.data, d ∈ m.committed := by
  obtain ⟨io, -, h2⟩ := C86_alone_partial hk h hs
  have e : s.committed = m.committed := by
    unfold Multi.view at hs
    rw [Option.map_eq_some_iff] at hs
    obtain ⟨r, -, rfl⟩ := hs
    rfl
  rw [← e]
  exact C01_integrity_late_partial (c := { c with clk := clk k }) ⟨hc.width, hc.float⟩ h2.toLate

/-- **C86** (partial, as above): what the encoder and such a decoder do is defined, and throws nothing. -/
theorem C86_no_fault_partial (hc : c.Ok) {k : Nat} (hk : ∀ j, acks j → j = k) (h : MultiReach c clk late ios acks m) {s : Sys}
    (hs : m.view k = some s) (a : Act) (ha : Permits { c with clk := clk k } late s a) :
    ∃ m' s', m.step c clk k a = .ok m' ∧ m'.view k = some s' ∧ s'.errs = 0 := by
  obtain ⟨io, -, h2⟩ := C86_alone_partial hk h hs
  have hc' : ({ c with clk := clk k } : Cfg w).Ok := ⟨hc.width, hc.float⟩
  obtain ⟨s', h3, h4⟩ : ∃ s', s.step { c with clk := clk k } a = .ok s' ∧ s'.errs = 0 := by
    cases late
    · exact C05_no_fault_partial hc' h2 a ha
    · exact C05_no_fault_late_partial hc' h2 a ha
  have hlt : k < m.recv.length := by
    unfold Multi.view at hs
    rw [Option.map_eq_some_iff] at hs
    obtain ⟨r, q, -⟩ := hs
    exact (List.getElem?_eq_some_iff.1 q).1
  refine ⟨{ enc := s'.enc, committed := s'.committed, recv := m.recv.set k ⟨s'.dec, s'.hist, s'.errs⟩ }, s', ?_, ?_, h4⟩
  · unfold Multi.step
    rw [hs]
    simp only [h3]
    rfl
  · unfold Multi.view
    simp only [List.getElem?_set_self hlt, Option.map_some]

/-! ## Concrete schedules -/

/-- Run a schedule as long as it is one. -/
def runMulti (c : Cfg w) (clk : Nat → Clock) (late : Bool) (acks : List Nat) : Multi → List (Nat × Act) → Option Multi
  | m, [] => some m
  | m, (k, a) :: t =>
    match m.view k with
    | none => none
    | some s =>
      if permitsB { c with clk := clk k } late s a && (!a.isAck || acks.contains k) then
        match m.step c clk k a with
        | .ok m' => runMulti c clk late acks m' t
        | .error _ => none
      else none

theorem multi_of_run {as : List Nat} (acts : List (Nat × Act)) {m m' : Multi} (h : MultiReach c clk late ios (· ∈ as) m)
    (hr : runMulti c clk late as m acts = some m') : MultiReach c clk late ios (· ∈ as) m' := by
  induction acts generalizing m with
  | nil => cases hr; exact h
  | cons x t ih =>
    obtain ⟨k, a⟩ := x
    unfold runMulti at hr
    split at hr
    · cases hr
    · next s hs =>
      split at hr
      · next hb =>
        simp only [Bool.and_eq_true, Bool.or_eq_true] at hb
        split at hr
        · next m1 hm =>
          refine ih (.step h hs (permits_of_B hb.1) ?_ hm) hr
          intro j hj
          subst hj
          rcases hb.2 with q | q
          · cases q
          · exact List.contains_iff_mem.1 q
        · cases hr
      · cases hr

/-- The state reached by a schedule. -/
@[irreducible] def multiReached (c : Cfg w) (clk : Nat → Clock) (late : Bool) (ios : List Bool) (as : List Nat) (acts : List (Nat × Act)) : Multi :=
  (runMulti c clk late as (Multi.init clk ios) acts).getD (Multi.init clk ios)

theorem multiReached_reach {as : List Nat} {acts : List (Nat × Act)}
    (h : (runMulti c clk late as (Multi.init clk ios) acts).isSome = true) :
    MultiReach c clk late ios (· ∈ as) (multiReached c clk late ios as acts) := by
  obtain ⟨s, hs⟩ := Option.isSome_iff_exists.1 h
  unfold multiReached
  rw [hs]
  exact multi_of_run acts .init hs

/-- Packets reach both decoders in the order they are emitted in.  The first one gets the source 1 alone and sends an ack; the second one holds
the repair {0, 1} when the repair {0} arrives. -/
def twoDecoders : List (Nat × Act) :=
  [(0, .setRate 100), (0, .commit (dat 0)), (0, .commit (dat 1)), (0, .deliver 1), (0, .genAck), (0, .repair), (1, .deliver 2), (0, .ack 0),
   (0, .repair), (1, .deliver 3), (0, .commit (dat 2)), (0, .commit (dat 3)), (0, .repair), (0, .repair), (1, .deliver 6), (1, .deliver 7)]

/-- **C86 fails** if the acks of one decoder reach the encoder and there is another one: it hands over a datum that was never committed, although
its packets arrive in the order they were emitted in. -/
theorem C86_false (dbg : Bool) : ∃ m s, MultiReach (cfg8 dbg) (fun _ _ => 0) false [false, false] (· ∈ [0]) m ∧ m.view 1 = some s ∧
    s.hist = [2, 3, 6, 7] ∧ ∃ d ∈ s.dec.data, d ∉ m.committed := by
  have h : (runMulti (cfg8 dbg) (fun _ _ => 0) false [0] (Multi.init (fun _ _ => 0) [false, false]) twoDecoders).isSome = true := by
    revert dbg; decide +kernel
  have h2 : ((multiReached (cfg8 dbg) (fun _ _ => 0) false [false, false] [0] twoDecoders).view 1).any
      (fun s => decide (s.hist = [2, 3, 6, 7] ∧ ∃ d ∈ s.dec.data, d ∉ s.committed)) = true := by
    clear h; revert dbg; decide +kernel
  obtain ⟨s, h3, h4⟩ := (Option.any_eq_true _ _).1 h2
  obtain ⟨h5, h6⟩ := of_decide_eq_true h4
  refine ⟨_, s, multiReached_reach h, h3, h5, ?_⟩
  have e : s.committed = (multiReached (cfg8 dbg) (fun _ _ => 0) false [false, false] [0] twoDecoders).committed := by
    unfold Multi.view at h3
    rw [Option.map_eq_some_iff] at h3
    obtain ⟨r, -, rfl⟩ := h3
    rfl
  rw [← e]
  exact h6

/-- Both decoders lose a datum, each another one, and recover it from the same repair; the acks of the first one reach the encoder. -/
def bothRecover : List (Nat × Act) :=
  [(0, .setRate 100), (0, .commit (dat 0)), (0, .commit (dat 1)), (0, .deliver 0), (1, .deliver 1), (0, .repair), (0, .deliver 2), (1, .deliver 2),
   (0, .genAck), (0, .ack 0)]

example : MultiReach (cfg8 true) (fun _ _ => 0) false [true, false] (· ∈ [0]) (multiReached (cfg8 true) (fun _ _ => 0) false [true, false] [0] bothRecover) :=
  multiReached_reach (by decide +kernel)
example : (multiReached (cfg8 true) (fun _ _ => 0) false [true, false] [0] bothRecover).recv.map (·.dec.data) = [[dat 0, dat 1], [dat 1, dat 0]] := by
  decide +kernel

end Netcode
