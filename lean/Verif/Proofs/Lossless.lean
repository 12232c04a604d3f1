import Verif.Spec.Lossless
import Verif.Proofs.SysFacts
import Verif.Proofs.DecProps

/-!
# Lossless schedules: the invariant
-/

set_option linter.unusedSectionVars false

namespace Netcode

open OMap

variable {w : Nat} [Fact (0 < w)]

/-! ## Intervals -/

/-- The sorted list of the identifiers from `l` (included) to `u` (excluded). -/
structure Itv (l u : Nat) (ids : List Nat) : Prop where
  sorted : Sorted ids
  mem : ∀ x, x ∈ ids ↔ l ≤ x ∧ x < u

theorem runsFrom_itv (k : Nat) (prev len : Nat) (hl : 1 ≤ len) (h : len ≤ 255) :
    255 * runsFrom prev 1 len (List.range' (prev + 1) k) + 1 ≤ k + len + 255 := by
  induction k generalizing prev len with
  | zero => simp [runsFrom]; omega
  | succ k ih =>
    rw [List.range'_succ]
    unfold runsFrom
    have e : prev + 1 - prev = 1 := by omega
    rw [e]
    split
    · rename_i hc
      have := ih (prev + 1) (len + 1) (by omega) (by omega)
      omega
    · have := ih (prev + 1) 1 (by omega) (by omega)
      omega

theorem smallGaps_range' (l k : Nat) : SmallGaps (List.range' l k) := by
  induction k generalizing l with
  | zero => trivial
  | succ k ih =>
    rw [List.range'_succ]
    cases k with
    | zero => trivial
    | succ k =>
      have := ih (l + 1)
      rw [List.range'_succ] at this ⊢
      refine ⟨?_, this⟩
      have : l + 1 - l = 1 := by omega
      rw [this]; decide

theorem Itv.eq {l u : Nat} {ids : List Nat} (h : Itv l u ids) : ids = List.range' l (u - l) := by
  apply sorted_ext h.sorted
  · exact List.pairwise_lt_range'
  · intro x
    rw [h.mem, List.mem_range'_1]
    omega

theorem Itv.wire {l u : Nat} {ids : List Nat} (h : Itv l u ids) (hu : u ≤ 2 ^ 32) (hlen : ids.length ≤ 16000000) :
    WireIds ids := by
  refine ⟨h.sorted, fun x hx => by have := (h.mem x).1 hx; omega, ?_, ?_⟩
  · rw [h.eq]; exact smallGaps_range' _ _
  · rw [h.eq] at hlen ⊢
    rw [List.length_range'] at hlen
    generalize u - l = k at *
    match k with
    | 0 => show (0 : Nat) + 1 < 2 ^ 16; decide
    | 1 => show (0 : Nat) + 1 < 2 ^ 16; decide
    | k + 2 =>
      rw [List.range'_succ, List.range'_succ]
      show runsFrom (l + 1) (l + 1 - l) 1 _ + 1 < _
      have e : l + 1 - l = 1 := by omega
      rw [e]
      have := runsFrom_itv k (l + 1) 1 (by omega) (by omega)
      omega

theorem Itv.nil {l : Nat} : Itv l l [] := ⟨List.Pairwise.nil, by intro x; simp⟩

/-! ## Acks -/

/-- Every ack emitted lists what `Q` allows. -/
structure AckQ (Q : List Nat → Prop) (d : NDec) : Prop where
  ids : d.ackIds = []
  packets : d.ackPackets < 2 ^ 16
  out : ∀ a ∈ d.out, Q a.ids ∧ a.nbPackets < 2 ^ 16

theorem AckQ.mono {Q Q' : List Nat → Prop} {d : NDec} (h : AckQ Q d) (hQ : ∀ l, Q l → Q' l) : AckQ Q' d :=
  ⟨h.ids, h.packets, fun a ha => ⟨hQ _ (h.out a ha).1, (h.out a ha).2⟩⟩

theorem AckQ.congr {Q : List Nat → Prop} {d d' : NDec} (h : AckQ Q d) (h1 : d'.ackIds = d.ackIds)
    (h2 : d'.ackPackets < 2 ^ 16) (h3 : d'.out = d.out) : AckQ Q d' :=
  ⟨by rw [h1]; exact h.ids, h2, by rw [h3]; exact h.out⟩

theorem foldl_setInsert_self {l : List Nat} (h : Sorted l) : l.foldl setInsert [] = l :=
  sorted_ext (foldl_setInsert_sorted _ _ List.Pairwise.nil) h (fun x => by rw [foldl_setInsert_mem]; simp)

theorem AckQ.generate {Q : List Nat → Prop} {d : NDec} (h : AckQ Q d) {held : List Nat} (hs : Sorted held) (hq : Q held) :
    AckQ Q (d.generateAckWith held) := by
  refine ⟨rfl, by show (0 : Nat) < 2 ^ 16; decide, ?_⟩
  intro a ha
  rcases List.mem_append.1 ha with ha | ha
  · exact h.out a ha
  · rw [List.mem_singleton] at ha
    subst ha
    refine ⟨?_, h.packets⟩
    simp only [h.ids, foldl_setInsert_self hs]
    exact hq

theorem AckQ.maybe {Q : List Nat → Prop} {d : NDec} (h : AckQ Q d) (clk : Clock) {held : List Nat} (hs : Sorted held)
    (hq : Q held) : AckQ Q (d.maybeAckWith clk held) := by
  have hg := h.generate hs hq
  unfold NDec.maybeAckWith
  split
  · exact hg.congr rfl hg.packets rfl
  · split
    · simp only
      split
      · have h' : AckQ Q { d with ticks := d.ticks + 1 } := h.congr rfl h.packets rfl
        have hg' := h'.generate hs hq
        exact hg'.congr rfl hg'.packets rfl
      · exact h.congr rfl h.packets rfl
    · exact h

theorem AckQ.fold {Q : List Nat → Prop} (clk : Clock) (evs : List Event) {d : NDec} (h : AckQ Q d)
    (hh : ∀ ev ∈ evs, Sorted ev.held ∧ Q ev.held) : AckQ Q (evs.foldl (NDec.handleSource clk) d) := by
  induction evs generalizing d with
  | nil => exact h
  | cons ev t ih =>
    rw [List.foldl_cons]
    refine ih ?_ (fun e he => hh e (by simp [he]))
    have h' : AckQ Q { d with data := d.data ++ [ev.data] } := h.congr rfl h.packets rfl
    exact h'.maybe clk (hh ev (by simp)).1 (hh ev (by simp)).2

theorem fold_frame (clk : Clock) (evs : List Event) (d : NDec) :
    (evs.foldl (NDec.handleSource clk) d).det = d.det ∧
      (evs.foldl (NDec.handleSource clk) d).data = d.data ++ evs.map (·.data) := by
  induction evs generalizing d with
  | nil => exact ⟨rfl, by simp⟩
  | cons ev t ih =>
    rw [List.foldl_cons]
    obtain ⟨h1, h2⟩ := ih (NDec.handleSource clk d ev)
    have hf := maybeAckWith_frame clk { d with data := d.data ++ [ev.data] } ev.held
    refine ⟨h1.trans hf.1, ?_⟩
    rw [h2]
    unfold NDec.handleSource
    rw [hf.2]
    simp

/-! ## The decoder -/

/-- A decoder that lost nothing: it got the sources below `k`, and the last repair started at `L`. -/
structure Calm (data : Nat → List Byte) (io : Bool) (L k : Nat) (d : Dec) : Prop where
  mode : d.inOrder = io
  missing : d.missing = []
  repairs : d.repairs = []
  ordered : d.ordered = []
  first : io = true → d.firstMissing = k
  held : Itv L k d.sources.keys
  le : L ≤ k
  last : d.lastId = none ∨ d.lastId = some L
  ids : d.log.map (·.id) = List.range k
  log : d.log.map (·.data) = (List.range k).map data
  dec : d.nbDecoded = 0
  failed : d.nbFailed = 0

theorem calm_init (data : Nat → List Byte) (io : Bool) : Calm data io 0 0 (Dec.init io) := by
  refine ⟨rfl, rfl, rfl, rfl, fun _ => rfl, ⟨List.Pairwise.nil, by intro x; simp [Dec.init]⟩, le_refl _, Or.inl rfl, rfl, rfl, rfl, rfl⟩

/-- What the decoder does with the next source does not depend on the field. -/
theorem Calm.source_any {data : Nat → List Byte} {io : Bool} {L k : Nat} {d : Dec} (dbg : Bool)
    (h : Calm data io L k d) (hk : io = true → k + 1 < 2 ^ 32) :
    ∃ d', (∀ (v : Nat) (gf : GF v), d.onSource gf dbg ⟨k, data k⟩ = .ok d') ∧ Calm data io L (k + 1) d' ∧
      d'.log = d.log ++ [{ id := k, data := data k, held := d.sources.keys }] := by
  have hnk : k ∉ d.sources.map (·.1) := fun hx => by have := (h.held.mem k).1 hx; omega
  have hhas : d.sources.has k = false := (has_false_iff _ _).2 hnk
  have hout : ¬ (d.lastId.any (fun l => decide (k < l)) = true) := by
    rcases h.last with hl | hl
    · rw [hl]; simp
    · rw [hl]; have := h.le; simpa using this
  -- the state after the callback
  obtain ⟨d1, e1, f1, f2, f3, f4, f5, f6, f7, f8, f9, f10⟩ : ∃ d1, d.giveNew dbg ⟨k, data k⟩ = .ok d1 ∧
      d1.inOrder = io ∧ d1.missing = [] ∧ d1.repairs = [] ∧ d1.ordered = [] ∧ (io = true → d1.firstMissing = k + 1) ∧
      d1.sources = d.sources ∧ d1.lastId = d.lastId ∧
      d1.log = d.log ++ [{ id := k, data := data k, held := d.sources.keys }] ∧ d1.nbDecoded = 0 ∧ d1.nbFailed = 0 := by
    unfold Dec.giveNew
    cases hio : io with
    | false =>
      rw [if_pos (by rw [h.mode, hio]; rfl)]
      exact ⟨_, rfl, by rw [← hio]; exact h.mode, h.missing, h.repairs, h.ordered, by simp, rfl, rfl, rfl, h.dec, h.failed⟩
    | true =>
      rw [if_neg (by rw [h.mode, hio]; simp), if_pos (by rw [h.first hio])]
      have hmod : (d.firstMissing + 1) % 2 ^ 32 = k + 1 := by rw [h.first hio]; exact Nat.mod_eq_of_lt (hk hio)
      rw [hmod]
      unfold Dec.flush
      rw [if_neg (by simp only [Dec.callback, h.ordered]; simp)]
      exact ⟨_, rfl, by rw [← hio]; exact h.mode, h.missing, h.repairs, h.ordered, fun _ => rfl, rfl, rfl, rfl, h.dec, h.failed⟩
  have hhead : ∀ (v : Nat) (gf : GF v), addSourceHead gf dbg ⟨k, data k⟩ d = .ok d1 := by
    intro v gf
    unfold addSourceHead
    simp only [e1, bind, Except.bind, f2, OMap.get?_nil]
    rfl
  have htail : addSourceTail dbg ⟨k, data k⟩ d1 = .ok { d1 with sources := d1.sources.emplace k ⟨k, data k⟩ } := by
    unfold addSourceTail
    simp only [f6]
    rw [cassert_ok _ (by rw [hhas]; rfl)]
    simp only [bind, Except.bind]
    rw [if_neg]
    · rfl
    · cases hio : io with
      | false => rw [f1, hio]; simp
      | true => rw [f1, hio, f5 hio]; simp
  have hfuel : d.fuel = 5 + 1 := by unfold Dec.fuel; rw [h.repairs, h.missing]; rfl
  have hadd : ∀ (v : Nat) (gf : GF v), addSource gf dbg d.fuel ⟨k, data k⟩ d =
      .ok { d1 with sources := d1.sources.emplace k ⟨k, data k⟩ } := by
    intro v gf
    rw [hfuel]
    unfold addSource
    have hm : d1.missing.keys.head? = none := by rw [f2]; rfl
    simp only [hhead, bind, Except.bind, hm]
    unfold scanMissing
    exact htail
  refine ⟨{ d1 with sources := d1.sources.emplace k ⟨k, data k⟩ }, ?_, ?_, f8⟩
  · intro v gf
    unfold Dec.onSource
    rw [if_neg hout, if_neg (by rw [hhas]; simp)]
    simp only [hadd, bind, Except.bind]
    unfold Dec.fullDecode
    rw [if_pos (by simp [f3])]
    rfl
  · refine ⟨f1, f2, f3, f4, f5, ⟨?_, ?_⟩, by have := h.le; omega, ?_, ?_, ?_, f9, f10⟩
    · show SortedKeys _
      exact sorted_emplace _ (by rw [f6]; exact h.held.sorted) _ _
    · intro x
      show x ∈ (d1.sources.emplace k _).map (·.1) ↔ _
      rw [mem_keys_emplace, f6]
      have := h.held.mem x
      have hle := h.le
      simp only [keys_eq] at this
      rw [this]
      omega
    · show d1.lastId = none ∨ d1.lastId = some L
      rw [f7]; exact h.last
    · show d1.log.map _ = _
      rw [f8, List.map_append, h.ids, List.range_succ]; rfl
    · show d1.log.map _ = _
      rw [f8, List.map_append, h.log, List.range_succ, List.map_append]; rfl

theorem Calm.source {data : Nat → List Byte} {io : Bool} {L k : Nat} {d : Dec} (gf : GF w) (dbg : Bool)
    (h : Calm data io L k d) (hk : io = true → k + 1 < 2 ^ 32) :
    ∃ d', d.onSource gf dbg ⟨k, data k⟩ = .ok d' ∧ Calm data io L (k + 1) d' ∧
      d'.log = d.log ++ [{ id := k, data := data k, held := d.sources.keys }] := by
  obtain ⟨d', h1, h2⟩ := h.source_any dbg hk
  exact ⟨d', h1 w gf, h2⟩

/-- Nor what it does with a repair of sources that it holds. -/
theorem Calm.repair_any {data : Nat → List Byte} {io : Bool} {L k : Nat} {d : Dec} (dbg : Bool)
    (h : Calm data io L k d) (r : DRepair) {f : Nat} (hr : Itv f k r.ids) (hLf : L ≤ f) (hfk : f < k) :
    ∃ d', (∀ (v : Nat) (gf : GF v), d.onRepair gf dbg r = .ok d') ∧ Calm data io f k d' ∧ d'.log = d.log ∧ d'.lastId = some f := by
  have hmf : f ∈ r.ids := (hr.mem f).2 ⟨le_refl _, hfk⟩
  have hne : r.ids ≠ [] := List.ne_nil_of_mem hmf
  have hhead : r.ids.head hne = f := by
    have h1 := (hr.mem _).1 (List.head_mem hne)
    have : r.ids.head hne ≤ f := by
      obtain ⟨a, t, e⟩ : ∃ a t, r.ids = a :: t := by
        cases hids : r.ids with
        | nil => exact absurd hids hne
        | cons a t => exact ⟨a, t, rfl⟩
      have hs := hr.sorted
      simp only [e, List.head_cons] at hmf hs ⊢
      rcases List.mem_cons.1 hmf with hh | hh
      · omega
      · have := (List.pairwise_cons.1 hs).1 f hh; omega
    omega
  have hu := fun (v : Nat) (gf : GF v) => onRepair_useless (gf := gf) (dbg := dbg) (s := d) hne hr.sorted (by rw [h.repairs]; rfl)
    (by
      intro l hl
      have := (hr.mem _).1 (List.getLast_mem hne)
      rcases h.last with h2 | h2 <;> rw [h2] at hl
      · cases hl
      · cases hl; omega)
    (by intro x hx; have := (hr.mem x).1 hx; exact (h.held.mem x).2 ⟨by omega, this.2⟩)
  -- nothing is dropped but sources
  obtain ⟨d1, e1, f1⟩ : ∃ d1, d.dropOutdated dbg f = .ok d1 ∧
      d1 = { d with lastId := some f, sources := d.sources.eraseBelow f } := by
    refine ⟨_, ?_, rfl⟩
    unfold Dec.dropOutdated
    simp only [h.repairs, dropRepairs, bind, Except.bind]
    unfold Dec.giveAllOutdated
    cases hio : io with
    | false =>
      rw [if_neg (by simp only; rw [h.mode, hio]; simp)]
      simp [pure, Except.pure, h.missing, h.repairs, OMap.eraseBelow]
    | true =>
      rw [if_pos (by simp only; rw [h.mode, hio])]
      simp only [h.ordered, List.takeWhile_nil, giveOutdated, bind, Except.bind]
      unfold Dec.flush
      simp only [h.ordered, List.not_mem_nil, if_false]
      rw [if_neg (by rw [h.first hio]; omega)]
      simp [pure, Except.pure, h.missing, h.repairs, h.ordered, OMap.eraseBelow]
  refine ⟨{ d1 with nbUseless := d1.nbUseless + 1 }, by intro v gf; rw [hu, hhead, e1]; rfl, ?_, by rw [f1], by rw [f1]⟩
  subst f1
  refine ⟨h.mode, h.missing, h.repairs, h.ordered, h.first, ⟨?_, ?_⟩, by omega, Or.inr rfl, h.ids, h.log, h.dec, h.failed⟩
  · show SortedKeys _
    exact sorted_eraseBelow (by exact h.held.sorted) _
  · intro x
    show x ∈ (d.sources.eraseBelow f).map (·.1) ↔ _
    rw [mem_keys_eraseBelow]
    have := h.held.mem x
    simp only [keys_eq] at this
    rw [this]
    omega

theorem Calm.repair {data : Nat → List Byte} {io : Bool} {L k : Nat} {d : Dec} (gf : GF w) (dbg : Bool)
    (h : Calm data io L k d) (r : DRepair) {f : Nat} (hr : Itv f k r.ids) (hLf : L ≤ f) (hfk : f < k) :
    ∃ d', d.onRepair gf dbg r = .ok d' ∧ Calm data io f k d' ∧ d'.log = d.log ∧ d'.lastId = some f := by
  obtain ⟨d', h1, h2⟩ := h.repair_any dbg r hr hLf hfk
  exact ⟨d', h1 w gf, h2⟩

/-! ## The system -/

def Em.isSrc : Em → Bool
  | .src _ => true
  | .rep _ _ => false

/-- Number of sources among the first `i` packets. -/
def nsrc (ems : List Em) (i : Nat) : Nat := (ems.take i).countP Em.isSrc

theorem nsrc_append {ems new : List Em} {i : Nat} (h : i ≤ ems.length) : nsrc (ems ++ new) i = nsrc ems i := by
  unfold nsrc; rw [List.take_append_of_le_length h]

theorem nsrc_succ {ems : List Em} {i : Nat} {em : Em} (h : ems[i]? = some em) :
    nsrc ems (i + 1) = nsrc ems i + (if em.isSrc then 1 else 0) := by
  unfold nsrc
  rw [List.take_add_one, h, List.countP_append]
  simp [List.countP_cons]

/-- Acks list intervals that start below `L` and end at or below `k`. -/
def AckItv (L k : Nat) (ids : List Nat) : Prop := ∃ l u, l ≤ L ∧ u ≤ k ∧ Itv l u ids

/-- The shape of what a systematic encoder emits: source `x` is the `x`-th one, and repairs list intervals that end
with the last source emitted and whose beginnings do not decrease. -/
structure EmShape (ems : List Em) (a n : Nat) : Prop where
  srcs : ∀ i x, ems[i]? = some (.src x) → x = nsrc ems i
  reps : ∀ i rid W, ems[i]? = some (.rep rid W) → ∃ f, Itv f (nsrc ems i) W ∧ f < nsrc ems i ∧ f ≤ a ∧
    ∀ j rj Wj, i ≤ j → ems[j]? = some (.rep rj Wj) → ∀ y ∈ Wj, f ≤ y
  all : nsrc ems ems.length = n

theorem EmShape.src {ems : List Em} {a a' n : Nat} (h : EmShape ems a n) (ha : a ≤ a') :
    EmShape (ems ++ [.src n]) a' (n + 1) where
  srcs := by
    intro i x hi
    rcases getElem?_append_singleton hi with ⟨hlt, hi'⟩ | ⟨heq, hi'⟩
    · rw [nsrc_append (le_of_lt hlt)]; exact h.srcs i x hi'
    · cases hi'
      rw [heq, nsrc_append (le_refl _), h.all]
  reps := by
    intro i rid' W hi
    rcases getElem?_append_singleton hi with ⟨hlt, hi⟩ | ⟨heq, hi⟩
    · rw [nsrc_append (le_of_lt hlt)]
      obtain ⟨f, g1, g2, g3, g4⟩ := h.reps i rid' W hi
      refine ⟨f, g1, g2, by omega, ?_⟩
      intro j rj Wj hij hj y hy
      rcases getElem?_append_singleton hj with ⟨_, hj⟩ | ⟨_, hj⟩
      · exact g4 j rj Wj hij hj y hy
      · cases hj
    · cases hi
  all := by
    rw [List.length_append]
    show nsrc (ems ++ [Em.src n]) (ems.length + 1) = _
    rw [nsrc_succ (em := .src n) (by simp), nsrc_append (le_refl _), h.all]
    rfl

theorem EmShape.rep {ems : List Em} {a n : Nat} (h : EmShape ems a n) (rid : Nat) {W : List Nat} (hW : Itv a n W)
    (hlt : a < n) : EmShape (ems ++ [.rep rid W]) a n where
  srcs := by
    intro i x hi
    rcases getElem?_append_singleton hi with ⟨hlt, hi⟩ | ⟨_, hi⟩
    · rw [nsrc_append (le_of_lt hlt)]; exact h.srcs i x hi
    · cases hi
  reps := by
    intro i rid' W' hi
    rcases getElem?_append_singleton hi with ⟨hlt, hi⟩ | ⟨heq, hi⟩
    · rw [nsrc_append (le_of_lt hlt)]
      obtain ⟨f, g1, g2, g3, g4⟩ := h.reps i rid' W' hi
      refine ⟨f, g1, g2, g3, ?_⟩
      intro j rj Wj hij hj y hy
      rcases getElem?_append_singleton hj with ⟨_, hj⟩ | ⟨_, hj⟩
      · exact g4 j rj Wj hij hj y hy
      · cases hj
        have := (hW.mem y).1 hy
        omega
    · cases hi
      subst heq
      rw [nsrc_append (le_refl _), h.all]
      refine ⟨a, hW, hlt, le_refl _, ?_⟩
      intro j rj Wj hij hj y hy
      rcases getElem?_append_singleton hj with ⟨hjl, hj⟩ | ⟨_, hj⟩
      · omega
      · cases hj
        exact ((hW.mem y).1 hy).1
  all := by
    rw [List.length_append]
    show nsrc (ems ++ [Em.rep rid W]) (ems.length + 1) = _
    rw [nsrc_succ (em := .rep rid W) (by simp), nsrc_append (le_refl _), h.all]
    rfl

theorem EmShape.mono {ems : List Em} {a a' n : Nat} (h : EmShape ems a n) (ha : a ≤ a') : EmShape ems a' n :=
  ⟨h.srcs, fun i rid W hi => by
    obtain ⟨f, g1, g2, g3, g4⟩ := h.reps i rid W hi
    exact ⟨f, g1, g2, by omega, g4⟩, h.all⟩

/-- The invariant of lossless schedules: the window starts at `a`, `k` sources arrived, the last repair that arrived
starts at `L`. -/
structure FInv (c : Cfg w) (io : Bool) (data : Nat → List Byte) (ems : List Em) (A : Set Nat) (a L k : Nat)
    (s : Sys) : Prop where
  enc : EncInv c.gf data ems A s.committed.length s.enc
  cur : s.enc.curSrc = s.committed.length
  curLt : s.committed.length < 2 ^ 32
  rep : s.enc.curRep = s.enc.nbSentRepairs
  rate : s.enc.rate ≠ 0
  ws : s.enc.windowSize ≠ 0
  sys : s.enc.systematic = true
  win : Itv a s.committed.length s.enc.win
  aLe : a ≤ s.committed.length
  shape : EmShape ems a s.committed.length
  histLe : s.hist.length ≤ ems.length
  kEq : k = nsrc ems s.hist.length
  calm : Calm data io L k s.dec.det
  La : L ≤ a
  Lrep : ∀ j rj Wj, s.hist.length ≤ j → ems[j]? = some (.rep rj Wj) → ∀ y ∈ Wj, L ≤ y
  dataLog : s.dec.data = s.dec.det.log.map (·.data)
  acks : AckQ (AckItv L k) s.dec
  errs : s.errs = 0

section
variable {c : Cfg w} {io : Bool} {data : Nat → List Byte} {ems : List Em} {A : Set Nat} {a L k : Nat} {s : Sys}

theorem finv_init (c : Cfg w) (io : Bool) (data : Nat → List Byte) : FInv c io data [] ∅ 0 0 0 (Sys.init c.clk io) where
  enc := encInv_init
  cur := rfl
  curLt := by show (0 : Nat) < 2 ^ 32; decide
  rep := rfl
  rate := by show Enc.init.rate ≠ 0; decide
  ws := by show Enc.init.windowSize ≠ 0; decide
  sys := rfl
  win := Itv.nil
  aLe := le_refl _
  shape := ⟨by simp, by simp, rfl⟩
  histLe := le_refl _
  kEq := rfl
  calm := calm_init data io
  La := le_refl _
  Lrep := by simp
  dataLog := rfl
  acks := ⟨rfl, by show (0 : Nat) < 2 ^ 16; decide, by intro a ha; cases ha⟩
  errs := rfl

theorem FInv.withDec (h : FInv c io data ems A a L k s) {d : NDec} (h1 : d.det = s.dec.det)
    (h2 : d.data = s.dec.data) (h3 : AckQ (AckItv L k) d) : FInv c io data ems A a L k { s with dec := d } :=
  { h with
    calm := by show Calm data io L k d.det; rw [h1]; exact h.calm
    dataLog := by show d.data = d.det.log.map _; rw [h1, h2]; exact h.dataLog
    acks := h3 }

/-- Changes of the encoder. -/
theorem FInv.withEnc (h : FInv c io data ems A a L k s) {e : Enc} {new : List Em} {A' : Set Nat} {a' : Nat}
    {com : List (List Byte)} (hlt : com.length < 2 ^ 32) (he : EncInv c.gf data (ems ++ new) A' com.length e)
    (hc : e.curSrc = com.length) (hr : e.curRep = e.nbSentRepairs) (hrate : e.rate ≠ 0) (hws : e.windowSize ≠ 0)
    (hsys : e.systematic = true) (hwin : Itv a' com.length e.win) (haa : a ≤ a') (hal : a' ≤ com.length)
    (hsh : EmShape (ems ++ new) a' com.length) (hnew : ∀ rid W, Em.rep rid W ∈ new → ∀ y ∈ W, a ≤ y) :
    FInv c io data (ems ++ new) A' a' L k { s with enc := e, committed := com } where
  enc := he
  cur := hc
  curLt := hlt
  rep := hr
  rate := hrate
  ws := hws
  sys := hsys
  win := hwin
  aLe := hal
  shape := hsh
  histLe := by rw [List.length_append]; have := h.histLe; show s.hist.length ≤ _; omega
  kEq := by show k = nsrc (ems ++ new) s.hist.length; rw [nsrc_append h.histLe]; exact h.kEq
  calm := h.calm
  La := le_trans h.La haa
  Lrep := by
    intro j rj Wj hj hjw y hy
    by_cases hlt : j < ems.length
    · rw [List.getElem?_append_left hlt] at hjw
      exact h.Lrep j rj Wj hj hjw y hy
    · rw [List.getElem?_append_right (by omega)] at hjw
      exact le_trans h.La (hnew rj Wj (List.mem_of_getElem? hjw) y hy)
  dataLog := h.dataLog
  acks := h.acks
  errs := h.errs

/-- Calls that only change parameters. -/
theorem FInv.param (h : FInv c io data ems A a L k s) {e : Enc} (h1 : e.sources = s.enc.sources)
    (h2 : e.out = s.enc.out) (h3 : e.curRep = s.enc.curRep) (h4 : e.curSrc = s.enc.curSrc)
    (h5 : e.nbSentRepairs = s.enc.nbSentRepairs) (h6 : e.rate ≠ 0) (h7 : e.windowSize ≠ 0) (h8 : e.systematic = true) :
    FInv c io data ems A a L k { s with enc := e } :=
  { h with
    enc := h.enc.congr h1 h2 h3
    cur := h4.trans h.cur
    rep := by show e.curRep = e.nbSentRepairs; rw [h3, h5]; exact h.rep
    rate := h6
    ws := h7
    sys := h8
    win := by show Itv a _ (e.sources.map _); rw [h1]; exact h.win }

theorem FInv.commit (hc : c.Ok) (h : FInv c io data ems A a L k s) (d : List Byte)
    (ha : ApiOk w s (.commit d)) (hd : data s.committed.length = d) :
    ∃ s' ems' a', s.step c (.commit d) = .ok s' ∧ FInv c io data ems' A a' L k s' := by
  obtain ⟨h1, h2, h3⟩ := ha
  rw [← h.rep] at h3
  subst hd
  obtain ⟨e', new, e1, e2, e3, e4, e5, _, e8, e9, e10, e6, e7, _, _, _⟩ :=
    h.enc.commit hc.width c.dbg h.cur h1 h2 h3 h.rate h.ws
  simp only [h.sys, if_true] at e10 e6 e7
  have hlen : (s.committed ++ [data s.committed.length]).length = s.committed.length + 1 := by simp
  -- the window
  obtain ⟨a', haa, hal, hwin⟩ : ∃ a', a ≤ a' ∧ a' ≤ s.committed.length ∧ Itv a' (s.committed.length + 1) e'.win := by
    have hw : e'.win = (if s.enc.sources.length = s.enc.windowSize then s.enc.win.tail else s.enc.win) ++ [s.committed.length] := by
      unfold Enc.win
      rw [e9, List.map_append]
      split <;> simp [srcOf, List.map_tail]
    have happ : ∀ b W, Itv b s.committed.length W → b ≤ s.committed.length → Itv b (s.committed.length + 1) (W ++ [s.committed.length]) := by
      intro b W hW hb
      refine ⟨?_, ?_⟩
      · refine List.pairwise_append.2 ⟨hW.sorted, by simp, ?_⟩
        intro x hx y hy
        rw [List.mem_singleton.1 hy]
        exact ((hW.mem x).1 hx).2
      · intro x
        rw [List.mem_append, hW.mem, List.mem_singleton]
        omega
    rw [hw]
    split
    · rename_i hws
      have hne : s.enc.win.length ≠ 0 := by
        unfold Enc.win; rw [List.length_map, hws]; exact h.ws
      have heq := h.win.eq
      have hal : a < s.committed.length := by
        rw [heq, List.length_range'] at hne; omega
      refine ⟨a + 1, by omega, by omega, happ _ _ ?_ (by omega)⟩
      have htl : s.enc.win.tail = List.range' (a + 1) (s.committed.length - (a + 1)) := by
        rw [heq, show s.committed.length - a = (s.committed.length - (a + 1)) + 1 by omega, List.range'_succ]
        rfl
      rw [htl]
      refine ⟨List.pairwise_lt_range', ?_⟩
      intro x; rw [List.mem_range'_1]; omega
    · exact ⟨a, le_refl _, h.aLe, happ _ _ h.win h.aLe⟩
  refine ⟨{ s with enc := e', committed := s.committed ++ [data s.committed.length] }, ems ++ new, a', ?_, ?_⟩
  · simp only [Sys.step]
    rw [e1]; rfl
  · refine h.withEnc (by rw [hlen]; exact h2) (by rw [hlen]; exact e2) (by rw [hlen]; exact e3) ?_ (by rw [e4]; exact h.rate)
      (by rw [e5]; exact h.ws) (by rw [e8]; exact h.sys) (by rw [hlen]; exact hwin) haa (by rw [hlen]; omega) ?_ ?_
    · rw [e6, e7, h.rep]
    · rw [hlen, e10]
      have hS := h.shape.src haa
      split
      · rw [← List.append_assoc]; exact hS.rep _ hwin (by omega)
      · simpa using hS
    · intro rid W hm y hy
      rw [e10] at hm
      have hW : W = e'.win := by
        rcases List.mem_append.1 hm with hm | hm
        · simp at hm
        · split at hm <;> simp at hm
          exact hm.2
      rw [hW] at hy
      have := (hwin.mem y).1 hy
      omega

theorem FInv.repair (hc : c.Ok) (h : FInv c io data ems A a L k s) (ha : ApiOk w s .repair) :
    ∃ s' ems', s.step c .repair = .ok s' ∧ FInv c io data ems' A a L k s' := by
  obtain ⟨h1, h2⟩ := ha
  rw [← h.rep] at h2
  have hne : s.enc.sources ≠ [] := by intro hx; apply h1; unfold Enc.window; rw [hx]; rfl
  have hal : a < s.committed.length := by
    have hw : s.enc.win ≠ [] := by unfold Enc.win; simpa using hne
    obtain ⟨x, hx⟩ := List.exists_mem_of_ne_nil _ hw
    have := (h.win.mem x).1 hx
    omega
  obtain ⟨r, hr, e1⟩ := h.enc.generateRepair hc.width c.dbg hne h2
  simp only [Sys.step, e1]
  refine ⟨_, ems ++ [.rep s.enc.curRep s.enc.win], rfl, ?_⟩
  refine h.withEnc h.curLt (h.enc.emitRep r hr hne rfl rfl rfl h2) h.cur
    (by show s.enc.curRep + 1 = s.enc.nbSentRepairs + 1; rw [h.rep]) h.rate h.ws h.sys h.win (le_refl _) h.aLe
    (h.shape.rep _ h.win hal) ?_
  intro rid W hm y hy
  simp only [List.mem_singleton, Em.rep.injEq] at hm
  rw [hm.2] at hy
  exact ((h.win.mem y).1 hy).1

theorem FInv.ack (hc : c.Ok) (h : FInv c io data ems A a L k s) (hk : k ≤ s.committed.length) (j : Nat)
    (ha : ∀ q, s.dec.out[j]? = some q → q.ids.length ≤ 16000000) :
    ∃ s' A' a', s.step c (.ack j) = .ok s' ∧ FInv c io data ems A' a' L k s' := by
  simp only [Sys.step]
  cases hj : s.dec.out[j]? with
  | none => exact ⟨s, A, a, rfl, h⟩
  | some q =>
    obtain ⟨⟨l, u, hl, hu, hI⟩, hnb⟩ := h.acks.out q (List.mem_of_getElem? hj)
    have hw := hI.wire (by have := h.curLt; omega) (ha q hj)
    simp only [notify_ack c.F c.dbg s.enc q hnb hw, bind, Except.bind, pure, Except.pure]
    have hE := h.enc.ack q.ids (e' := { s.enc with
         nbAcks := s.enc.nbAcks + 1
         rate := if s.enc.adaptive then
             if s.enc.nbSentPackets > 0 then rateForLoss c.F (lossRate c.F s.enc.nbSentPackets q.nbPackets)
             else rateForLoss c.F 0
           else s.enc.rate
         nbSentPackets := 0
         sources := eraseIds s.enc.sources q.ids }) (eraseIds_eq _ _ h.enc.srcSorted hI.sorted) rfl rfl
    have hsrc := eraseIds_eq s.enc.sources q.ids h.enc.srcSorted hI.sorted
    refine ⟨_, A ∪ {x | x ∈ q.ids}, max a u, rfl, ?_⟩
    generalize hg : ({ s.enc with
         nbAcks := s.enc.nbAcks + 1
         rate := if s.enc.adaptive then
             if s.enc.nbSentPackets > 0 then rateForLoss c.F (lossRate c.F s.enc.nbSentPackets q.nbPackets)
             else rateForLoss c.F 0
           else s.enc.rate
         nbSentPackets := 0
         sources := eraseIds s.enc.sources q.ids } : Enc) = e' at hE
    have hes : e'.sources = s.enc.sources.filter (fun s => decide (s.id ∉ q.ids)) := by rw [← hg]; exact hsrc
    have := h.withEnc (e := e') (new := []) (com := s.committed) (a' := max a u) h.curLt (by rw [List.append_nil]; exact hE)
      (by rw [← hg]; exact h.cur) (by rw [← hg]; exact h.rep)
      (by rw [← hg]; exact rate_pos hc.float s.enc q.nbPackets h.rate) (by rw [← hg]; exact h.ws) (by rw [← hg]; exact h.sys)
      (by
        unfold Enc.win
        rw [hes]
        have hmap : (s.enc.sources.filter (fun s => decide (s.id ∉ q.ids))).map (·.id) =
            s.enc.win.filter (fun x => decide (x ∉ q.ids)) := by
          unfold Enc.win; rw [List.filter_map]; rfl
        rw [hmap]
        refine ⟨List.Pairwise.filter _ h.win.sorted, fun x => ?_⟩
        rw [List.mem_filter, decide_eq_true_eq, hI.mem, h.win.mem]
        have := h.La
        omega) (by omega) (by have := h.aLe; omega)
      (by rw [List.append_nil]; exact h.shape.mono (by omega)) (by simp)
    rw [List.append_nil] at this
    have he : s.errs + errCount (Except.ok (ε := CppErr) (writeAck q).flatten.length) = s.errs := rfl
    rw [he]
    exact this

theorem FInv.k_le (h : FInv c io data ems A a L k s) : k ≤ s.committed.length := by
  rw [h.kEq, ← h.shape.all]
  unfold nsrc
  exact List.Sublist.countP_le ((List.take_sublist_take_left h.histLe))

theorem FInv.deliver (hc : c.Ok) (h : FInv c io data ems A a L k s)
    (ha : ∀ r, s.enc.out[s.hist.length]? = some (.repair r) → r.ids.length ≤ 16000000) :
    ∃ s' L' k', s.step c (.deliver s.hist.length) = .ok s' ∧ FInv c io data ems A a L' k' s' := by
  have hcur := h.curLt
  cases hi : s.enc.out[s.hist.length]? with
  | none =>
    refine ⟨s, L, k, ?_, h⟩
    simp only [Sys.step]; rw [hi]; rfl
  | some p =>
    obtain ⟨em, hem, hr⟩ := h.enc.ems_get hi
    have hhl : s.hist.length < ems.length := getElem?_lt hem
    cases em with
    | src x =>
      have hp : p = .source (srcOf data x) := hr
      subst hp
      have hx : x = k := (h.shape.srcs _ _ hem).trans h.kEq.symm
      subst hx
      have hxn : x < s.committed.length := h.enc.emLt _ (List.mem_of_getElem? hem) x (by simp [Em.ids])
      obtain ⟨det', e1, e2, e3⟩ := h.calm.source c.gf c.dbg (fun _ => by omega)
      have hN := notify_source c.gf c.dbg c.clk s.dec (srcOf data x) (by show x < 2 ^ 32; omega)
        (h.enc.dataOk x hxn).2.1 det' e1
      have hdrop : det'.log.drop s.dec.det.log.length = [{ id := x, data := data x, held := s.dec.det.sources.keys }] := by
        rw [e3]; simp
      generalize hd0 : ({ s.dec with nbSources := s.dec.nbSources + 1, ackPackets := (s.dec.ackPackets + 1) % 2 ^ 16 } : NDec) = d0 at hN
      have hd0det : d0.det = s.dec.det := by rw [← hd0]
      have hd0data : d0.data = s.dec.data := by rw [← hd0]
      have hd0a : AckQ (AckItv L (x + 1)) { d0 with det := det' } := by
        refine (h.acks.mono (Q' := AckItv L (x + 1)) ?_).congr ?_ ?_ ?_
        · rintro ids ⟨l, u, g1, g2, g3⟩; exact ⟨l, u, g1, by omega, g3⟩
        · rw [← hd0]
        · rw [← hd0]; exact Nat.mod_lt _ (by decide)
        · rw [← hd0]
      have hacks : AckQ (AckItv L (x + 1)) (d0.afterDet c.clk det') := by
        unfold NDec.afterDet
        rw [hd0det, hdrop]
        refine hd0a.fold c.clk _ ?_
        intro ev hev
        rw [List.mem_singleton.1 hev]
        exact ⟨h.calm.held.sorted, L, x, le_refl _, by omega, h.calm.held⟩
      have hfr := fold_frame c.clk [{ id := x, data := data x, held := s.dec.det.sources.keys }] { d0 with det := det' }
      have hdet : (d0.afterDet c.clk det').det = det' := by unfold NDec.afterDet; rw [hd0det, hdrop]; exact hfr.1
      have hdata : (d0.afterDet c.clk det').data = det'.log.map (·.data) := by
        unfold NDec.afterDet; rw [hd0det, hdrop, hfr.2, e3, List.map_append, ← h.dataLog, ← hd0data]
      generalize d0.afterDet c.clk det' = nd at hN hacks hdet hdata
      refine ⟨{ s with dec := nd, hist := s.hist ++ [s.hist.length], errs := s.errs + 0 }, L, x + 1, ?_, ?_⟩
      · simp only [Sys.step]
        rw [hi]
        simp only [EPkt.bytes, EPkt.chunks, hN]
        rfl
      · exact { h with
          histLe := by simp only [List.length_append, List.length_singleton]; omega
          kEq := by
            simp only [List.length_append, List.length_singleton]
            rw [nsrc_succ hem, ← h.kEq]; rfl
          calm := by show Calm data io L (x + 1) nd.det; rw [hdet]; exact e2
          Lrep := by
            intro j rj Wj hj
            simp only [List.length_append, List.length_singleton] at hj
            exact h.Lrep j rj Wj (by omega)
          dataLog := by show nd.data = nd.det.log.map _; rw [hdet]; exact hdata
          acks := hacks
          errs := h.errs }
    | rep rid W =>
      obtain ⟨r, hp, hEnc, hne, hso⟩ := hr
      subst hp
      have hids : r.ids = W := by rw [hEnc.ids, List.map_map]; exact List.map_id W
      obtain ⟨f, g1, g2, g3, g4⟩ := h.shape.reps _ _ _ hem
      rw [← h.kEq] at g1 g2
      have hLf : L ≤ f := h.Lrep _ _ _ (le_refl _) hem f ((g1.mem f).2 ⟨le_refl _, g2⟩)
      have hkn := h.k_le
      have hwire : WireIds r.ids := by
        have := ha r hi
        rw [hids] at this ⊢
        exact g1.wire (by omega) this
      have hWd : ∀ x ∈ W, DataOk w (data x) := fun x hx =>
        h.enc.dataOk x (h.enc.emLt _ (List.mem_of_getElem? hem) x hx)
      have hsl := (hEnc.symLen (fun x hx => by obtain ⟨y, hy, rfl⟩ := List.mem_map.1 hx; exact hWd y hy)).2.1
      have hrl : r.id < 2 ^ 32 := by
        rw [hEnc.id]; exact lt_trans (h.enc.repLt rid W (List.mem_of_getElem? hem)) h.enc.repBound
      obtain ⟨det', e1, e2, e3, -⟩ := h.calm.repair c.gf c.dbg ⟨r.id, r.ids, r.encSize,
        r.sym ++ ((writeIds r.ids).flatten ++ beBytes 2 r.encSize.toNat ++ beBytes 2 r.sym.length ++ r.sym),
        r.sym.length⟩ (by simp only; rw [hids]; exact g1) hLf g2
      have hN := notify_repair c.gf c.dbg c.clk s.dec r hrl hwire hsl det' e1
      have hdrop : det'.log.drop s.dec.det.log.length = [] := by rw [e3]; simp
      generalize hd0 : ({ s.dec with nbRepairs := s.dec.nbRepairs + 1, ackPackets := (s.dec.ackPackets + 1) % 2 ^ 16 } : NDec) = d0 at hN
      have hd0det : d0.det = s.dec.det := by rw [← hd0]
      have hd0data : d0.data = s.dec.data := by rw [← hd0]
      have haft : d0.afterDet c.clk det' = { d0 with det := det' } := by
        unfold NDec.afterDet; rw [hd0det, hdrop]; rfl
      rw [haft] at hN
      have hacks : AckQ (AckItv f k) { d0 with det := det' } := by
        refine (h.acks.mono (Q' := AckItv f k) ?_).congr ?_ ?_ ?_
        · rintro ids ⟨l, u, g1, g2, g3⟩; exact ⟨l, u, by omega, g2, g3⟩
        · rw [← hd0]
        · rw [← hd0]; exact Nat.mod_lt _ (by decide)
        · rw [← hd0]
      refine ⟨{ s with dec := { d0 with det := det' }, hist := s.hist ++ [s.hist.length], errs := s.errs + 0 }, f, k, ?_, ?_⟩
      · simp only [Sys.step]
        rw [hi]
        simp only [EPkt.bytes, EPkt.chunks, hN]
        rfl
      · exact { h with
          histLe := by simp only [List.length_append, List.length_singleton]; omega
          kEq := by
            simp only [List.length_append, List.length_singleton]
            rw [nsrc_succ hem, ← h.kEq]; rfl
          calm := e2
          La := g3
          Lrep := by
            intro j rj Wj hj hjw y hy
            simp only [List.length_append, List.length_singleton] at hj
            exact g4 j rj Wj (by omega) hjw y hy
          dataLog := by show d0.data = det'.log.map _; rw [hd0data, e3]; exact h.dataLog
          acks := hacks
          errs := h.errs }

/-- What the decoder does with the next packet does not depend on the field. -/
theorem FInv.notify_any (h : FInv c io data ems A a L k s) {p : EPkt} (hi : s.enc.out[s.hist.length]? = some p)
    (ha : ∀ r, p = .repair r → r.ids.length ≤ 16000000) :
    ∃ x, ∀ (v : Nat) [Fact (0 < v)] (gf : GF v), s.dec.notify gf c.dbg c.clk p.bytes = .ok x := by
  have hcur := h.curLt
  obtain ⟨em, hem, hr⟩ := h.enc.ems_get hi
  cases em with
  | src x =>
    have hp : p = .source (srcOf data x) := hr
    subst hp
    have hx : x = k := (h.shape.srcs _ _ hem).trans h.kEq.symm
    subst hx
    have hxn : x < s.committed.length := h.enc.emLt _ (List.mem_of_getElem? hem) x (by simp [Em.ids])
    obtain ⟨det', e1, -⟩ := h.calm.source_any c.dbg (fun _ => by omega)
    exact ⟨_, fun v _ gf => notify_source gf c.dbg c.clk s.dec (srcOf data x) (by show x < 2 ^ 32; omega)
      (h.enc.dataOk x hxn).2.1 det' (e1 v gf)⟩
  | rep rid W =>
    obtain ⟨r, hp, hEnc, hne, hso⟩ := hr
    subst hp
    have hids : r.ids = W := by rw [hEnc.ids, List.map_map]; exact List.map_id W
    obtain ⟨f, g1, g2, g3, g4⟩ := h.shape.reps _ _ _ hem
    rw [← h.kEq] at g1 g2
    have hLf : L ≤ f := h.Lrep _ _ _ (le_refl _) hem f ((g1.mem f).2 ⟨le_refl _, g2⟩)
    have hkn := h.k_le
    have hwire : WireIds r.ids := by
      have := ha r rfl
      rw [hids] at this ⊢
      exact g1.wire (by omega) this
    have hWd : ∀ x ∈ W, DataOk w (data x) := fun x hx =>
      h.enc.dataOk x (h.enc.emLt _ (List.mem_of_getElem? hem) x hx)
    have hsl := (hEnc.symLen (fun x hx => by obtain ⟨y, hy, rfl⟩ := List.mem_map.1 hx; exact hWd y hy)).2.1
    have hrl : r.id < 2 ^ 32 := by
      rw [hEnc.id]; exact lt_trans (h.enc.repLt rid W (List.mem_of_getElem? hem)) h.enc.repBound
    obtain ⟨det', e1, -⟩ := h.calm.repair_any c.dbg ⟨r.id, r.ids, r.encSize,
      r.sym ++ ((writeIds r.ids).flatten ++ beBytes 2 r.encSize.toNat ++ beBytes 2 r.sym.length ++ r.sym),
      r.sym.length⟩ (by simp only; rw [hids]; exact g1) hLf g2
    exact ⟨_, fun v _ gf => notify_repair gf c.dbg c.clk s.dec r hrl hwire hsl det' (e1 v gf)⟩

theorem FInv.step (hc : c.Ok) (h : FInv c io data ems A a L k s) (x : Act) (hx : Fifo w s x)
    (hD : ∀ d, x = .commit d → data s.committed.length = d) :
    ∃ s' ems' A' a' L' k', s.step c x = .ok s' ∧ FInv c io data ems' A' a' L' k' s' := by
  obtain ⟨hapi, hx⟩ := hx
  cases x with
  | commit d =>
    obtain ⟨s', ems', a', h1, h2⟩ := h.commit hc d hapi (hD d rfl)
    exact ⟨s', ems', A, a', L, k, h1, h2⟩
  | repair =>
    obtain ⟨s', ems', h1, h2⟩ := h.repair hc hapi
    exact ⟨s', ems', A, a, L, k, h1, h2⟩
  | setRate n =>
    refine ⟨{ s with enc := { s.enc with rate := n } }, ems, A, a, L, k, ?_, ?_⟩
    · simp only [Sys.step, Enc.setRate]; rw [cassert_true _ (by simpa [ApiOk] using hapi)]; rfl
    · exact h.param rfl rfl rfl rfl rfl (Nat.pos_iff_ne_zero.1 hapi) h.ws h.sys
  | setWindow n =>
    refine ⟨{ s with enc := { s.enc with windowSize := n } }, ems, A, a, L, k, ?_, ?_⟩
    · simp only [Sys.step, Enc.setWindowSize]; rw [cassert_true _ (by simpa [ApiOk] using hapi)]; rfl
    · exact h.param rfl rfl rfl rfl rfl h.rate (Nat.pos_iff_ne_zero.1 hapi) h.sys
  | setAdaptive b => exact ⟨_, ems, A, a, L, k, rfl, h.param rfl rfl rfl rfl rfl h.rate h.ws h.sys⟩
  | setSystematic b => exact ⟨_, ems, A, a, L, k, rfl, h.param rfl rfl rfl rfl rfl h.rate h.ws hx⟩
  | deliver i =>
    obtain ⟨rfl, hx⟩ := hx
    obtain ⟨s', L', k', h1, h2⟩ := h.deliver hc hx
    exact ⟨s', ems, A, a, L', k', h1, h2⟩
  | ack j =>
    obtain ⟨s', A', a', h1, h2⟩ := h.ack hc h.k_le j hx
    exact ⟨s', ems, A', a', L, k, h1, h2⟩
  | genAck =>
    exact ⟨_, ems, A, a, L, k, rfl, h.withDec rfl rfl (h.acks.generate h.calm.held.sorted ⟨L, k, le_refl _, le_refl _, h.calm.held⟩)⟩
  | maybeAck =>
    have hf := maybeAckWith_frame c.clk s.dec s.dec.det.sources.keys
    exact ⟨_, ems, A, a, L, k, rfl, h.withDec hf.1 hf.2
      (h.acks.maybe c.clk h.calm.held.sorted ⟨L, k, le_refl _, le_refl _, h.calm.held⟩)⟩
  | setAckNb n =>
    refine ⟨{ s with dec := { s.dec with ackNb := min n 128 } }, ems, A, a, L, k, ?_, ?_⟩
    · simp only [Sys.step, NDec.setAckNb]; rw [cassert_true _ (by simpa [ApiOk] using hapi)]; rfl
    · exact h.withDec rfl rfl (h.acks.congr rfl h.acks.packets rfl)
  | setAckPeriod ms =>
    exact ⟨_, ems, A, a, L, k, rfl, h.withDec rfl rfl (h.acks.congr rfl h.acks.packets rfl)⟩

theorem fifo_inv (hc : c.Ok) (h : FifoReach c io s) :
    ∀ data, Agree data s.committed → ∃ ems A a L k, FInv c io data ems A a L k s := by
  induction h with
  | init => exact fun data _ => ⟨[], ∅, 0, 0, 0, finv_init c io data⟩
  | @step s s' x hr hx hst ih =>
    intro data hag
    rw [step_committed hst] at hag
    have hD : ∀ d, x = .commit d → data s.committed.length = d := by
      rintro d rfl
      exact hag _ d (by simp [Act.commits])
    obtain ⟨ems, A, a, L, k, hI⟩ := ih data hag.prefix
    obtain ⟨s2, ems', A', a', L', k', h1, h2⟩ := hI.step hc x hx hD
    rw [hst] at h1
    cases h1
    exact ⟨_, _, _, _, _, h2⟩

/-- The number of sources that arrived, counted on the packets. -/
theorem FInv.arrived (h : FInv c io data ems A a L k s) : s.arrivedSources = k := by
  rw [h.kEq]
  unfold Sys.arrivedSources nsrc
  have hm : s.enc.out.map EPkt.isSource = ems.map Em.isSrc := by
    apply List.ext_getElem?
    intro i
    rw [List.getElem?_map, List.getElem?_map]
    cases hi : s.enc.out[i]? with
    | none =>
      have : ems[i]? = none := by
        rw [List.getElem?_eq_none_iff, ← h.enc.outLen]; exact List.getElem?_eq_none_iff.1 hi
      rw [this]; rfl
    | some p =>
      obtain ⟨em, hem, hr⟩ := h.enc.ems_get hi
      rw [hem]
      cases em with
      | src x => have hp : p = .source (srcOf data x) := hr; rw [hp]; rfl
      | rep rid W => obtain ⟨r, hp, _⟩ := hr; rw [hp]; rfl
  have h1 : ∀ (l : List EPkt), l.countP EPkt.isSource = (l.map EPkt.isSource).countP id := by
    intro l; rw [List.countP_map]; rfl
  have h2 : ∀ (l : List Em), l.countP Em.isSrc = (l.map Em.isSrc).countP id := by
    intro l; rw [List.countP_map]; rfl
  rw [h1, h2, List.map_take, List.map_take, hm]
end

end Netcode
