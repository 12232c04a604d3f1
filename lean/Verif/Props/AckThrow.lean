import Verif.Model.AckThrow
import Verif.Props.Handlers

/-!
# C74: a packet handler of a decoder that throws
-/

namespace Netcode

variable {w : Nat}

/-- `e` is `d` but for an ack that was lost on an exception: before the next ack it has the identifiers `U` of the lost one in store, and
from then on the two are the same but for that ack. -/
def Lost (U : List Nat) (O : List Ack) (d e : NDec) : Prop :=
  (e = { d with ackIds := e.ackIds } ∧ d.out = O ∧ ∀ x, x ∈ e.ackIds ↔ x ∈ d.ackIds ∨ x ∈ U) ∨
  (e = { d with out := e.out } ∧ ∃ a a' post, d.out = O ++ a :: post ∧ e.out = O ++ a' :: post ∧ a'.nbPackets = a.nbPackets ∧
    ∀ x, x ∈ a'.ids ↔ x ∈ a.ids ∨ x ∈ U)

variable {U : List Nat} {O : List Ack} {d e : NDec}

theorem Lost.det (h : Lost U O d e) : e.det = d.det := by
  rcases h with ⟨h, _⟩ | ⟨h, _⟩ <;> rw [h]

theorem Lost.generate (h : Lost U O d e) (held : List Nat) : Lost U O (d.generateAckWith held) (e.generateAckWith held) := by
  rcases h with ⟨h, h1, h2⟩ | ⟨h, a, a', post, h1, h2, h3, h4⟩
  · right
    refine ⟨?_, ⟨held.foldl setInsert d.ackIds, d.ackPackets⟩, ⟨held.foldl setInsert e.ackIds, e.ackPackets⟩, [], ?_, ?_, ?_, ?_⟩
    · rw [h]; rfl
    · simp [NDec.generateAckWith, h1]
    · rw [h]; simp [NDec.generateAckWith, h1]
    · show e.ackPackets = d.ackPackets
      rw [h]
    · intro x
      simp only [foldl_setInsert_mem, h2]
      tauto
  · right
    refine ⟨?_, a, a', post ++ [⟨held.foldl setInsert d.ackIds, d.ackPackets⟩], ?_, ?_, h3, h4⟩
    · rw [h]; rfl
    · simp [NDec.generateAckWith, h1]
    · have e1 : e.ackIds = d.ackIds := by rw [h]
      have e2 : e.ackPackets = d.ackPackets := by rw [h]
      simp [NDec.generateAckWith, h2, e1, e2]

/-- A change that concerns neither the acks nor their identifiers. -/
theorem Lost.frame (h : Lost U O d e) (f : NDec → NDec) (h1 : ∀ d i, f { d with ackIds := i } = { f d with ackIds := i })
    (h2 : ∀ d o, f { d with out := o } = { f d with out := o }) (h3 : ∀ d, (f d).out = d.out) (h4 : ∀ d, (f d).ackIds = d.ackIds) :
    Lost U O (f d) (f e) := by
  rcases h with ⟨h, k1, k2⟩ | ⟨h, a, a', post, k1, k2, k3, k4⟩
  · left
    refine ⟨?_, by rw [h3, k1], by rw [h4, h4]; exact k2⟩
    rw [h4]
    conv_lhs => rw [h]
    rw [h1]
  · right
    refine ⟨?_, a, a', post, by rw [h3, k1], by rw [h3, k2], k3, k4⟩
    rw [h3]
    conv_lhs => rw [h]
    rw [h2]

theorem Lost.maybe (h : Lost U O d e) (clk : Clock) (held : List Nat) :
    Lost U O (d.maybeAckWith clk held) (e.maybeAckWith clk held) := by
  have e1 : e.ackPackets = d.ackPackets := by rcases h with ⟨h, _⟩ | ⟨h, _⟩ <;> rw [h]
  have e2 : e.ackNb = d.ackNb := by rcases h with ⟨h, _⟩ | ⟨h, _⟩ <;> rw [h]
  have e3 : e.ackPeriod = d.ackPeriod := by rcases h with ⟨h, _⟩ | ⟨h, _⟩ <;> rw [h]
  have e4 : e.ticks = d.ticks := by rcases h with ⟨h, _⟩ | ⟨h, _⟩ <;> rw [h]
  have e5 : e.lastAck = d.lastAck := by rcases h with ⟨h, _⟩ | ⟨h, _⟩ <;> rw [h]
  unfold NDec.maybeAckWith
  simp only [e1, e2, e3, e4, e5]
  split
  · exact (h.generate held).frame (fun d' => { d' with lastAck := clk d.ticks, ticks := d.ticks + 1 }) (fun _ _ => rfl) (fun _ _ => rfl)
      (fun _ => rfl) (fun _ => rfl)
  · split
    · split
      · have := (h.frame (fun d' => { d' with ticks := d.ticks + 1 }) (fun _ _ => rfl) (fun _ _ => rfl) (fun _ => rfl) (fun _ => rfl)).generate held
        have := this.frame (fun d' => { d' with lastAck := clk d.ticks }) (fun _ _ => rfl) (fun _ _ => rfl) (fun _ => rfl) (fun _ => rfl)
        simp only [e1, e2, e3, e5] at this
        exact this
      · have := h.frame (fun d' => { d' with ticks := d.ticks + 1 }) (fun _ _ => rfl) (fun _ _ => rfl) (fun _ => rfl) (fun _ => rfl)
        simp only [e1, e2, e3, e5] at this
        exact this
    · exact h

theorem Lost.fold (clk : Clock) (l : List Event) {d e : NDec} (h : Lost U O d e) :
    Lost U O (l.foldl (NDec.handleSource clk) d) (l.foldl (NDec.handleSource clk) e) := by
  induction l generalizing d e with
  | nil => exact h
  | cons ev t ih =>
    have e1 : e.data = d.data := by rcases h with ⟨h, _⟩ | ⟨h, _⟩ <;> rw [h]
    refine ih ?_
    have := (h.frame (fun d' => { d' with data := d.data ++ [ev.data] }) (fun _ _ => rfl) (fun _ _ => rfl) (fun _ => rfl)
      (fun _ => rfl)).maybe clk ev.held
    unfold NDec.handleSource
    rw [e1]
    exact this

theorem Lost.afterDet (clk : Clock) (det' : Dec) (h : Lost U O d e) : Lost U O (d.afterDet clk det') (e.afterDet clk det') := by
  unfold NDec.afterDet
  rw [h.det]
  exact (h.frame (fun d' => { d' with det := det' }) (fun _ _ => rfl) (fun _ _ => rfl) (fun _ => rfl) (fun _ => rfl)).fold clk _

/-- Two results that are the same fault, or states that are related. -/
def LostR (U : List Nat) (O : List Ack) : Out NDec → Out NDec → Prop
  | .ok d, .ok e => Lost U O d e
  | .error f, .error g => f = g
  | _, _ => False

theorem Lost.notify (gf : GF w) (dbg : Bool) (clk : Clock) (p : List Byte) (h : Lost U O d e) :
    LostR U O ((d.notify gf dbg clk p).map (·.1)) ((e.notify gf dbg clk p).map (·.1)) := by
  have c1 : Lost U O { d with nbRepairs := d.nbRepairs + 1, ackPackets := (d.ackPackets + 1) % 2 ^ 16 }
      { e with nbRepairs := e.nbRepairs + 1, ackPackets := (e.ackPackets + 1) % 2 ^ 16 } :=
    h.frame (fun d => { d with nbRepairs := d.nbRepairs + 1, ackPackets := (d.ackPackets + 1) % 2 ^ 16 }) (fun _ _ => rfl)
      (fun _ _ => rfl) (fun _ => rfl) (fun _ => rfl)
  have c2 : Lost U O { d with nbSources := d.nbSources + 1, ackPackets := (d.ackPackets + 1) % 2 ^ 16 }
      { e with nbSources := e.nbSources + 1, ackPackets := (e.ackPackets + 1) % 2 ^ 16 } :=
    h.frame (fun d => { d with nbSources := d.nbSources + 1, ackPackets := (d.ackPackets + 1) % 2 ^ 16 }) (fun _ _ => rfl)
      (fun _ _ => rfl) (fun _ => rfl) (fun _ => rfl)
  unfold NDec.notify
  cases hz : cassert dbg (decide (p.length ≠ 0)) with
  | error f => simp only [bind, Except.bind, Except.map, LostR]
  | ok _ =>
    cases ht : getPacketType p with
    | error x => cases x <;> simp only [bind, Except.bind, Except.map, LostR, pure, Except.pure] <;> exact h
    | ok ty =>
      cases ty with
      | ack => simp only [bind, Except.bind, Except.map, LostR, pure, Except.pure]; exact h
      | repair =>
        cases hr : readRepair p with
        | error x => cases x <;> simp only [bind, Except.bind, Except.map, LostR, pure, Except.pure]; exact c1
        | ok y =>
          simp only [bind, Except.bind, pure, Except.pure]
          rw [show e.det.onRepair gf dbg y.1 = d.det.onRepair gf dbg y.1 by rw [h.det]]
          cases d.det.onRepair gf dbg y.1 with
          | error f => simp only [Except.map, LostR]
          | ok det' => exact c1.afterDet clk det'
      | source =>
        cases hr : readSource p with
        | error x => cases x <;> simp only [bind, Except.bind, Except.map, LostR, pure, Except.pure]; exact c2
        | ok y =>
          simp only [bind, Except.bind, pure, Except.pure]
          rw [show e.det.onSource gf dbg y.1 = d.det.onSource gf dbg y.1 by rw [h.det]]
          cases d.det.onSource gf dbg y.1 with
          | error f => simp only [Except.map, LostR]
          | ok det' => exact c2.afterDet clk det'

theorem Lost.act (gf : GF w) (dbg : Bool) (clk : Clock) (a : DAct) (h : Lost U O d e) :
    LostR U O (d.act gf dbg clk a) (e.act gf dbg clk a) := by
  cases a with
  | packet p => exact h.notify gf dbg clk p
  | genAck =>
    have := h.generate d.det.sources.keys
    show Lost U O d.generateAck e.generateAck
    unfold NDec.generateAck
    rw [h.det]
    exact this
  | maybeAck =>
    have := h.maybe clk d.det.sources.keys
    show Lost U O (d.maybeAck clk) (e.maybeAck clk)
    unfold NDec.maybeAck
    rw [h.det]
    exact this
  | setAckNb n =>
    simp only [NDec.act, NDec.setAckNb]
    cases cassert dbg (decide (0 < n)) with
    | error f => simp only [bind, Except.bind, LostR]
    | ok _ =>
      exact h.frame (fun d => { d with ackNb := min n 128 }) (fun _ _ => rfl) (fun _ _ => rfl) (fun _ => rfl) (fun _ => rfl)
  | setAckPeriod ms =>
    exact h.frame (fun d => { d with ackPeriod := ms }) (fun _ _ => rfl) (fun _ _ => rfl) (fun _ => rfl) (fun _ => rfl)

theorem Lost.after (gf : GF w) (dbg : Bool) (clk : Clock) (acts : List DAct) {d e : NDec} (h : Lost U O d e) :
    LostR U O (d.after gf dbg clk acts) (e.after gf dbg clk acts) := by
  unfold NDec.after
  induction acts generalizing d e with
  | nil => exact h
  | cons a t ih =>
    rw [List.foldlM_cons, List.foldlM_cons]
    have h1 := h.act gf dbg clk a
    cases hd : d.act gf dbg clk a with
    | error f =>
      cases he : e.act gf dbg clk a with
      | error g => rw [hd, he] at h1; exact h1
      | ok e' => rw [hd, he] at h1; exact h1.elim
    | ok d' =>
      cases he : e.act gf dbg clk a with
      | error g => rw [hd, he] at h1; exact h1.elim
      | ok e' => rw [hd, he] at h1; exact ih h1

/-- **C74, in part.** The packet handler throws in a call of `generate_ack`, in any state `d` of the decoder.  Whatever the calls that
follow, they succeed exactly if they do without the exception; the data handed over, all that concerns sources and repairs, the counters and the
settings are the same.  So are the acks, but for the first one after the exception: it reports as many packets as it does when
the call is not made at all, and it names, besides the sources the latter names, those held at the time of the exception. -/
theorem C74_generate_ack_partial (gf : GF w) (dbg : Bool) (clk : Clock) (d : NDec) (acts : List DAct) :
    match d.after gf dbg clk acts, (d.generateAckT d.det.sources.keys).after gf dbg clk acts with
    | .ok d', .ok e' =>
      e'.det = d'.det ∧ e'.data = d'.data ∧ e'.nbAcks = d'.nbAcks ∧ e'.nbSources = d'.nbSources ∧ e'.nbRepairs = d'.nbRepairs ∧
      e'.ackPeriod = d'.ackPeriod ∧ e'.ackNb = d'.ackNb ∧ e'.ackPackets = d'.ackPackets ∧ e'.lastAck = d'.lastAck ∧ e'.ticks = d'.ticks ∧
      ((d'.out = d.out ∧ e'.out = d.out) ∨
        ∃ a a' post, d'.out = d.out ++ a :: post ∧ e'.out = d.out ++ a' :: post ∧ a'.nbPackets = a.nbPackets ∧
          ∀ x, x ∈ a'.ids ↔ x ∈ a.ids ∨ d.det.Holds x)
    | .error f, .error g => f = g
    | _, _ => False := by
  have h0 : Lost d.det.sources.keys d.out d (d.generateAckT d.det.sources.keys) :=
    .inl ⟨rfl, rfl, fun x => by simp only [NDec.generateAckT, foldl_setInsert_mem]⟩
  have h1 := h0.after gf dbg clk acts
  cases hd : d.after gf dbg clk acts with
  | error f =>
    cases he : (d.generateAckT d.det.sources.keys).after gf dbg clk acts with
    | error g => rw [hd, he] at h1; exact h1
    | ok e' => rw [hd, he] at h1; exact h1.elim
  | ok d' =>
    cases he : (d.generateAckT d.det.sources.keys).after gf dbg clk acts with
    | error g => rw [hd, he] at h1; exact h1.elim
    | ok e' =>
      rw [hd, he] at h1
      rcases h1 with ⟨h, k1, k2⟩ | ⟨h, a, a', post, k1, k2, k3, k4⟩
      · rw [h]
        exact ⟨rfl, rfl, rfl, rfl, rfl, rfl, rfl, rfl, rfl, rfl, .inl ⟨k1, k1⟩⟩
      · refine ⟨?_, ?_, ?_, ?_, ?_, ?_, ?_, ?_, ?_, ?_, .inr ⟨a, a', post, k1, k2, k3, fun x => ?_⟩⟩
        all_goals first | (rw [h]; done) | skip
        rw [k4]
        rfl

/-- A decoder that got sources 0 to 3, then the handler throws, then the repair {4, …, 7} makes it forget them and source 4 comes: the first ack
names the four sources held at the time of the exception too, which the decoder does not hold any more. -/
def throwAck : Option NDec :=
  ((NDec.init clk0 false).after gf8 true clk0 (give [0, 1, 2, 3])).toOption.bind fun d =>
    ((d.generateAckT d.det.sources.keys).after gf8 true clk0 (give [9, 5] ++ [.genAck, .genAck])).toOption
example : throwAck.map (fun d => d.out) = some [⟨[0, 1, 2, 3, 4], 6⟩, ⟨[4], 0⟩] := by decide +kernel
example : (((NDec.init clk0 false).after gf8 true clk0 (give [0, 1, 2, 3] ++ give [9, 5] ++ [.genAck, .genAck]))).toOption.map (fun d => d.out) =
    some [⟨[4], 6⟩, ⟨[4], 0⟩] := by decide +kernel

/-- **C74**, `maybe_ack`: with a handler that throws, the exception reaches the caller exactly if an ack would have been sent.  If so, the call
is a `generate_ack` that throws (`C74_generate_ack_partial`), but for a reading of the clock; if not, the handler does not matter.  And the
ack stays due: the next `maybe_ack` that finds the handler working sends it, if the clock does not go back. -/
theorem C74_maybe_ack (clk : Clock) (d : NDec) (held : List Nat) :
    ((d.maybeAckT clk held).2 = true ↔ (d.maybeAckWith clk held).out ≠ d.out) ∧
    ((d.maybeAckT clk held).2 = false → (d.maybeAckT clk held).1 = d.maybeAckWith clk held) ∧
    ((d.maybeAckT clk held).2 = true → (d.maybeAckT clk held).1 = d.generateAckT held ∨
      (d.maybeAckT clk held).1 = { d with ticks := d.ticks + 1 }.generateAckT held) ∧
    ((d.maybeAckT clk held).2 = true → clk d.ticks ≤ clk (d.ticks + 1) → ∀ held', ∃ a,
      ((d.maybeAckT clk held).1.maybeAckWith clk held').out = d.out ++ [a] ∧ a.nbPackets = d.ackPackets ∧
        ∀ x, x ∈ a.ids ↔ x ∈ d.ackIds ∨ x ∈ held ∨ x ∈ held') := by
  unfold NDec.maybeAckT
  split
  · rename_i h1
    refine ⟨by simp [NDec.maybeAckWith, h1, NDec.generateAckWith], by simp, fun _ => .inl rfl, fun _ _ held' => ?_⟩
    unfold NDec.maybeAckWith
    rw [if_pos (show (d.generateAckT held).ackPackets ≥ (d.generateAckT held).ackNb from h1)]
    exact ⟨_, rfl, rfl, fun x => by simp only [foldl_setInsert_mem, NDec.generateAckT]; tauto⟩
  · rename_i h1
    split
    · rename_i h2
      simp only
      split
      · rename_i h3
        refine ⟨by simp [NDec.maybeAckWith, h1, h2, h3, NDec.generateAckWith], by simp, fun _ => .inr rfl, fun _ hm held' => ?_⟩
        unfold NDec.maybeAckWith
        rw [if_neg (show ¬ ((({ d with ticks := d.ticks + 1 } : NDec).generateAckT held).ackPackets ≥
          (({ d with ticks := d.ticks + 1 } : NDec).generateAckT held).ackNb) from h1),
          if_pos (show (({ d with ticks := d.ticks + 1 } : NDec).generateAckT held).ackPeriod ≠ 0 from h2)]
        have h4 : clk (d.ticks + 1) - d.lastAck ≥ d.ackPeriod * 1000000 := by omega
        simp only [NDec.generateAckT, h4, if_true]
        exact ⟨_, rfl, rfl, fun x => by simp only [foldl_setInsert_mem, NDec.generateAckT]; tauto⟩
      · rename_i h3
        exact ⟨by simp [NDec.maybeAckWith, h1, h2, h3], fun _ => by simp [NDec.maybeAckWith, h1, h2, h3], by simp, by simp⟩
    · rename_i h2
      exact ⟨by simp [NDec.maybeAckWith, h1, h2], fun _ => by simp [NDec.maybeAckWith, h1, h2], by simp, by simp⟩

/-- Both reasons for an ack, and no reason. -/
example : (({ NDec.init clk0 false with ackPackets := 50 } : NDec).maybeAckT clk0 [1, 2]).2 = true := by decide +kernel
example : ((NDec.init (fun n => n * 100000000) false).maybeAckT (fun n => n * 100000000) [1, 2]).2 = true := by decide +kernel
example : ((NDec.init clk0 false).maybeAckT clk0 [1, 2]).2 = false := by decide +kernel

/-- **C74**, an exception inside `decoder(packet)`: if an ack is due when the source that just arrived was handed over, and the packet
handler throws, then the decoder goes on as if that packet had never come (apart from its counters), although its datum was handed over. -/
theorem C74_source (gf : GF w) (H : DHandler) (dbg : Bool) (clk : Clock) (d : NDec) (p : List Byte) (src : DSource) (n : Nat)
    (hp : p.head? = some 2#8) (hr : readSource p = .ok (src, n)) (h1 : ¬ d.det.Outdated src.id) (h2 : ¬ d.det.Holds src.id)
    (h3 : d.det.inOrder = false ∨ src.id = d.det.firstMissing) (h4 : H d.det.log.length = true) :
    d.notifyA gf H dbg clk p = .ok ((({ d with
      nbSources := d.nbSources + 1
      ackPackets := (d.ackPackets + 1) % 2 ^ 16
      data := d.data ++ [src.sym]
      det := d.det.callback src } : NDec).maybeAckT clk d.det.sources.keys).1, .user) := by
  have hne : p.length ≠ 0 := by intro e; rw [List.length_eq_zero_iff.1 e] at hp; cases hp
  have ht : getPacketType p = .ok .source := by
    cases p with
    | nil => cases hp
    | cons b t => cases hp; rfl
  unfold NDec.notifyA
  have h0 : cassert dbg (decide (p.length ≠ 0)) = .ok () := by
    unfold cassert
    simp [hne]
  simp only [h0, ht, hr, onSource_untouched H (gf := gf) (dbg := dbg) h1 h2 h3 h4, NDec.afterDetA]
  simp [Dec.callback]

/-- Source 3 comes to a new decoder without ordering. -/
example : ((NDec.init clk0 false).notifyA gf8 (fun _ => true) true clk0 [2, 0, 0, 0, 3, 0, 2, 8, 9]).toOption.map
    (fun x => (x.1.data, x.1.det.sources.keys, x.1.nbSources)) = some ([[8, 9]], [], 1) := by
  rw [C74_source gf8 (fun _ => true) true clk0 (NDec.init clk0 false) [2, 0, 0, 0, 3, 0, 2, 8, 9] ⟨3, [8, 9]⟩ 9 rfl
    (readSource_writeSource ⟨3, [8, 9]⟩ (by decide) (by decide)) (by decide +kernel) (by decide +kernel) (.inl rfl) rfl]
  decide +kernel

/-- An ack for each packet; the packet handler throws for the first one, then the packet comes again. -/
def throwTwice (dbg : Bool) : Option NDec :=
  ((NDec.init clk0 false).setAckNb dbg 1).toOption.bind fun d =>
    (d.notifyA gf8 (fun _ => true) dbg clk0 (eight.getD 0 [])).toOption.bind fun d =>
      (d.1.notify gf8 dbg clk0 (eight.getD 0 [])).toOption.map (·.1)

/-- **C74 fails** inside `decoder(packet)`: the packet handler throws for the ack that the arrival of a source causes, and the same datum is
handed over again when the packet is repeated.  Without the exception it is handed over once. -/
theorem C74_false_twice (dbg : Bool) :
    (throwTwice dbg).map (fun d => (d.data, d.out)) = some ([dat 0, dat 0], [⟨[], 2⟩]) ∧
    ((NDec.init clk0 false).after gf8 dbg clk0 (.setAckNb 1 :: give [0, 0])).toOption.map (fun d => (d.data, d.out)) =
      some ([dat 0], [⟨[], 1⟩]) := by
  revert dbg; decide +kernel

end Netcode
