import Verif.Model.Wire
import Verif.Spec.Basic
import Mathlib.Tactic.Ring
import Mathlib.Data.List.Basic

/-!
# Lemmas on the wire format
-/

namespace Netcode

/-! ## Integers -/

theorem beBytes_length (k x : Nat) : (beBytes k x).length = k := by
  induction k with
  | zero => rfl
  | succ k ih => simp [beBytes, ih]

theorem beNat_foldl (l : List Byte) (a : Nat) :
    l.foldl (fun acc b => acc * 256 + b.toNat) a = a * 256 ^ l.length + beNat l := by
  induction l generalizing a with
  | nil => simp [beNat]
  | cons b t ih =>
    have h1 := ih (a * 256 + b.toNat)
    have h2 := ih (0 * 256 + b.toNat)
    simp only [beNat, List.foldl_cons, List.length_cons, pow_succ] at *
    rw [h1, h2]; ring

theorem beNat_beBytes (k x : Nat) : beNat (beBytes k x) = x % 256 ^ k := by
  induction k with
  | zero => simp [beBytes, beNat, Nat.mod_one]
  | succ k ih =>
    have : beNat (beBytes (k + 1) x) = (x / 256 ^ k % 256) * 256 ^ k + beNat (beBytes k x) := by
      have := beNat_foldl (beBytes k x) ((x / 256 ^ k) % 256)
      rw [beBytes_length] at this
      simpa [beBytes, beNat] using this
    rw [this, ih, pow_succ]
    have h := Nat.mod_mul (x := x) (a := 256 ^ k) (b := 256)
    rw [h]; ring

theorem beNat_lt (l : List Byte) : beNat l < 256 ^ l.length := by
  induction l with
  | nil => simp [beNat]
  | cons b t ih =>
    have h := beNat_foldl t b.toNat
    have hb := b.isLt
    have : beNat (b :: t) = b.toNat * 256 ^ t.length + beNat t := by simpa [beNat] using h
    rw [this, List.length_cons, pow_succ]
    have h3 : (b.toNat + 1) * 256 ^ t.length ≤ 256 * 256 ^ t.length := Nat.mul_le_mul_right _ (by omega)
    rw [Nat.add_mul, Nat.one_mul, Nat.mul_comm 256] at h3
    omega

/-! ## Readers -/

/-- Readers from a cursor. -/
abbrev Reader (α : Type) := List Byte → Cur → PM (α × Cur)

/-- The cursor is inside of the packet and `max_len` is what is left. -/
def Safe (p : List Byte) (c : Cur) : Prop := c.pos + c.maxLen = p.length

/-- A reader that never leaves the packet, fails only by `overflow_error`, and reads the same thing in a
prefix of the packet when the prefix is long enough (else it raises `overflow_error`). -/
structure GoodReader {α : Type} (R : Reader α) : Prop where
  safe : ∀ {p c a c'}, Safe p c → R p c = .ok (a, c') → Safe p c' ∧ c.pos ≤ c'.pos
  err : ∀ {p c e}, Safe p c → R p c = .error e → e = .cpp .overflow
  trunc : ∀ {p c a c'} (k : Nat), Safe p c → R p c = .ok (a, c') → c.pos ≤ k → k ≤ p.length →
    (c'.pos ≤ k → R (p.take k) ⟨c.pos, k - c.pos⟩ = .ok (a, ⟨c'.pos, k - c'.pos⟩)) ∧
    (k < c'.pos → R (p.take k) ⟨c.pos, k - c.pos⟩ = .error (.cpp .overflow))

theorem goodInt (k : Nat) : GoodReader (fun p c => readInt p k c) where
  safe := by
    intro p c a c' hs h
    unfold Safe readInt at *
    split at h
    · cases h
    · split at h
      · cases h
      · simp only [Except.ok.injEq, Prod.mk.injEq] at h
        obtain ⟨_, rfl⟩ := h
        simp only; omega
  err := by
    intro p c e hs h
    unfold Safe readInt at *
    split at h
    · simpa using h.symm
    · split at h
      · omega
      · cases h
  trunc := by
    intro p c a c' n hs h hc hn
    unfold Safe at hs
    unfold readInt at h ⊢
    split at h
    · cases h
    · split at h
      · cases h
      · simp only [Except.ok.injEq, Prod.mk.injEq] at h
        obtain ⟨rfl, rfl⟩ := h
        simp only
        constructor
        · intro h'
          rw [if_neg (by omega), if_neg (by rw [List.length_take]; omega)]
          have : List.take k (List.drop c.pos (List.take n p)) = List.take k (List.drop c.pos p) := by
            rw [List.drop_take, List.take_take]; congr 1; omega
          rw [this]; congr 3
          omega
        · intro h'
          rw [if_pos (by omega)]

theorem goodSkip (k : Nat) : GoodReader (fun _ c => (skip k c).map (fun c => ((), c))) where
  safe := by
    intro p c a c' hs h
    unfold Safe skip at *
    split at h
    · cases h
    · simp only [Except.map, Except.ok.injEq, Prod.mk.injEq] at h
      obtain ⟨_, rfl⟩ := h
      simp only; omega
  err := by
    intro p c e hs h
    unfold skip at *
    split at h
    · simpa [Except.map] using h.symm
    · cases h
  trunc := by
    intro p c a c' n hs h hc hn
    unfold Safe at hs
    unfold skip at h ⊢
    split at h
    · cases h
    · simp only [Except.map, Except.ok.injEq, Prod.mk.injEq] at h
      obtain ⟨_, rfl⟩ := h
      simp only
      constructor
      · intro h'
        rw [if_neg (by omega)]
        simp only [Except.map]; congr 3; omega
      · intro h'
        rw [if_pos (by omega)]; rfl

theorem goodPure {α : Type} (a : α) : GoodReader (fun _ c => .ok (a, c)) where
  safe := by intro p c a' c' hs h; cases h; exact ⟨hs, le_refl _⟩
  err := by intro p c e hs h; cases h
  trunc := by
    intro p c a' c' n hs h hc hn
    cases h
    exact ⟨fun _ => rfl, fun h => absurd h (by omega)⟩

/-- Sequence of readers. -/
def rbind {α β : Type} (R : Reader α) (f : α → Reader β) : Reader β := fun p c =>
  match R p c with
  | .error e => .error e
  | .ok (a, c') => f a p c'

theorem goodBind {α β : Type} {R : Reader α} {f : α → Reader β} (hR : GoodReader R)
    (hf : ∀ a, GoodReader (f a)) : GoodReader (rbind R f) where
  safe := by
    intro p c a c' hs h
    unfold rbind at h
    cases hr : R p c with
    | error e => simp [hr] at h
    | ok x =>
      obtain ⟨b, c1⟩ := x
      simp only [hr] at h
      have h1 := hR.safe hs hr
      have h2 := (hf b).safe h1.1 h
      exact ⟨h2.1, le_trans h1.2 h2.2⟩
  err := by
    intro p c e hs h
    unfold rbind at h
    cases hr : R p c with
    | error e' => simp only [hr, Except.error.injEq] at h; subst h; exact hR.err hs hr
    | ok x =>
      obtain ⟨b, c1⟩ := x
      simp only [hr] at h
      exact (hf b).err (hR.safe hs hr).1 h
  trunc := by
    intro p c a c' n hs h hc hn
    unfold rbind at h ⊢
    cases hr : R p c with
    | error e => simp [hr] at h
    | ok x =>
      obtain ⟨b, c1⟩ := x
      simp only [hr] at h
      have h1 := hR.safe hs hr
      have h2 := (hf b).safe h1.1 h
      have t1 := hR.trunc n hs hr hc hn
      by_cases hn1 : c1.pos ≤ n
      · rw [t1.1 hn1]
        exact (hf b).trunc n h1.1 h hn1 hn
      · rw [t1.2 (by omega)]
        exact ⟨fun h' => absurd h' (by omega), fun _ => rfl⟩

theorem readPairs_eq (n : Nat) : (fun p c => readPairs p (n + 1) c) =
    rbind (fun p c => readInt p 1 c) (fun run => rbind (fun p c => readInt p 2 c) (fun v =>
      rbind (fun p c => readPairs p n c) (fun t _ c => .ok ((run, v) :: t, c)))) := by
  funext p c
  show readPairs p (n + 1) c = _
  simp only [readPairs, rbind, bind, Except.bind, pure, Except.pure]
  cases readInt p 1 c with
  | error e => rfl
  | ok x =>
    obtain ⟨run, c1⟩ := x
    simp only
    cases readInt p 2 c1 with
    | error e => rfl
    | ok x =>
      obtain ⟨v, c2⟩ := x
      simp only
      cases readPairs p n c2 with
      | error e => rfl
      | ok x => rfl

theorem goodPairs (n : Nat) : GoodReader (fun p c => readPairs p n c) := by
  induction n with
  | zero => exact goodPure []
  | succ n ih =>
    rw [readPairs_eq]
    exact goodBind (goodInt 1) fun _ => goodBind (goodInt 2) fun _ => goodBind ih fun _ => goodPure _

theorem readIds_eq : readIds = rbind (fun p c => readInt p 2 c) (fun nb =>
      if nb = 0 then (fun _ c => .ok ([], c)) else
      rbind (fun p c => readInt p 4 c) (fun first =>
      rbind (fun p c => readPairs p (nb - 1) c) (fun pairs _ c =>
        .ok ((partialSums 0 (first :: unrle pairs)).foldl setInsert [], c)))) := by
  funext p c
  simp only [readIds, rbind, bind, Except.bind, pure, Except.pure]
  cases readInt p 2 c with
  | error e => rfl
  | ok x =>
    obtain ⟨nb, c1⟩ := x
    simp only
    split
    · rfl
    · simp only [rbind]
      cases readInt p 4 c1 with
      | error e => rfl
      | ok x =>
        obtain ⟨v, c2⟩ := x
        simp only
        cases readPairs p (nb - 1) c2 with
        | error e => rfl
        | ok x => rfl

theorem goodIds : GoodReader readIds := by
  rw [readIds_eq]
  refine goodBind (goodInt 2) fun nb => ?_
  split
  · exact goodPure _
  · exact goodBind (goodInt 4) fun _ => goodBind (goodPairs _) fun _ => goodPure _

/-- The whole of a packet. -/
def whole (p : List Byte) : Cur := ⟨0, p.length⟩

theorem safe_whole (p : List Byte) : Safe p (whole p) := by simp [Safe, whole]

/-- `readAck` as a sequence of readers. -/
def ackReader : Reader Ack :=
  rbind (fun p c => readInt p 1 c) (fun _ => rbind (fun p c => readInt p 2 c) (fun nb =>
    rbind readIds (fun ids _ c => .ok ({ ids := ids, nbPackets := nb }, c))))

theorem goodAck : GoodReader ackReader :=
  goodBind (goodInt 1) fun _ => goodBind (goodInt 2) fun _ => goodBind goodIds fun _ => goodPure _

theorem readAck_eq (p : List Byte) : readAck p = (ackReader p (whole p)).map (fun x => (x.1, x.2.pos)) := by
  simp only [readAck, ackReader, rbind, bind, Except.bind, pure, Except.pure, whole]
  cases readInt p 1 _ with
  | error e => rfl
  | ok x =>
    obtain ⟨nb, c1⟩ := x
    simp only
    cases readInt p 2 c1 with
    | error e => rfl
    | ok x =>
      obtain ⟨v, c2⟩ := x
      simp only
      cases readIds p c2 with
      | error e => rfl
      | ok x => rfl

/-- The header of sources and repairs. -/
def headReader : Reader (Nat × Nat) :=
  rbind (fun p c => readInt p 1 c) (fun _ => rbind (fun p c => readInt p 4 c) (fun id =>
    rbind (fun p c => readInt p 2 c) (fun sz =>
      rbind (fun _ c => (skip sz c).map (fun c => ((), c))) (fun _ _ c => .ok ((id, sz), c)))))

theorem goodHead : GoodReader headReader :=
  goodBind (goodInt 1) fun _ => goodBind (goodInt 4) fun _ => goodBind (goodInt 2) fun _ =>
    goodBind (goodSkip _) fun _ => goodPure _

theorem readSource_eq (p : List Byte) : readSource p = (headReader p (whole p)).map
    (fun x => (({ id := x.1.1, sym := (p.drop headerSize).take x.1.2 } : DSource), x.2.pos)) := by
  simp only [readSource, headReader, rbind, bind, Except.bind, pure, Except.pure, whole]
  cases readInt p 1 _ with
  | error e => rfl
  | ok x =>
    obtain ⟨nb, c1⟩ := x
    simp only
    cases readInt p 4 c1 with
    | error e => rfl
    | ok x =>
      obtain ⟨v, c2⟩ := x
      simp only
      cases readInt p 2 c2 with
      | error e => rfl
      | ok x =>
        obtain ⟨sz, c3⟩ := x
        simp only
        cases skip sz c3 <;> rfl

/-- What follows the symbol of a repair. -/
def repairReader : Reader ((Nat × Nat) × List Nat × Nat) :=
  rbind headReader (fun h => rbind readIds (fun ids => rbind (fun p c => readInt p 2 c) (fun enc _ c =>
    .ok ((h, ids, enc), c))))

theorem goodRepair : GoodReader repairReader :=
  goodBind goodHead fun _ => goodBind goodIds fun _ => goodBind (goodInt 2) fun _ => goodPure _

theorem readRepair_eq (p : List Byte) : readRepair p = (repairReader p (whole p)).map
    (fun x => (({ id := x.1.1.1, ids := x.1.2.1, encSize := BitVec.ofNat 16 x.1.2.2,
                  buf := p.drop headerSize, symSize := x.1.1.2 } : DRepair), x.2.pos)) := by
  simp only [readRepair, repairReader, headReader, rbind, bind, Except.bind, pure, Except.pure, whole]
  cases readInt p 1 _ with
  | error e => rfl
  | ok x =>
    obtain ⟨nb, c1⟩ := x
    simp only
    cases readInt p 4 c1 with
    | error e => rfl
    | ok x =>
      obtain ⟨v, c2⟩ := x
      simp only
      cases readInt p 2 c2 with
      | error e => rfl
      | ok x =>
        obtain ⟨sz, c3⟩ := x
        simp only
        cases skip sz c3 with
        | error e => rfl
        | ok c4 =>
          simp only [Except.map]
          cases readIds p c4 with
          | error e => rfl
          | ok x =>
            obtain ⟨ids, c5⟩ := x
            simp only
            cases readInt p 2 c5 <;> rfl

/-! ## Reading what was written -/

/-- `rest` is what is left to read. -/
def At (p : List Byte) (c : Cur) (rest : List Byte) : Prop := Safe p c ∧ p.drop c.pos = rest

theorem At.len {p c rest} (h : At p c rest) : c.maxLen = rest.length := by
  obtain ⟨h1, h2⟩ := h
  rw [← h2, List.length_drop]; unfold Safe at h1; omega

theorem at_whole (p : List Byte) : At p (whole p) p := ⟨safe_whole p, by simp [whole]⟩

/-- The reader `R` reads the value `a` from the bytes `bs`. -/
def Reads {α : Type} (R : Reader α) (bs : List Byte) (a : α) : Prop :=
  ∀ p c rest, At p c (bs ++ rest) →
    ∃ c', R p c = .ok (a, c') ∧ At p c' rest ∧ c'.pos = c.pos + bs.length

theorem at_advance {p c bs rest} (h : At p c (bs ++ rest)) :
    At p ⟨c.pos + bs.length, c.maxLen - bs.length⟩ rest := by
  have hl := h.len
  obtain ⟨h1, h2⟩ := h
  unfold Safe at h1
  rw [List.length_append] at hl
  refine ⟨by simp only [Safe]; omega, ?_⟩
  simp only
  rw [← List.drop_drop, h2, List.drop_left]

theorem reads_int (k x : Nat) : Reads (fun p c => readInt p k c) (beBytes k x) (x % 256 ^ k) := by
  intro p c rest h
  have h2 := at_advance h
  have hl := h.len
  obtain ⟨h1, h3⟩ := h
  unfold Safe at h1
  rw [List.length_append, beBytes_length] at hl
  rw [beBytes_length] at h2
  refine ⟨_, ?_, h2, by rw [beBytes_length]⟩
  simp only [readInt]
  rw [if_neg (by omega), if_neg (by omega), h3, List.take_append_of_le_length (by rw [beBytes_length]),
    List.take_of_length_le (by rw [beBytes_length]), beNat_beBytes]

theorem reads_skip (bs : List Byte) :
    Reads (fun _ c => (skip bs.length c).map (fun c => ((), c))) bs () := by
  intro p c rest h
  have h2 := at_advance h
  have hl := h.len
  rw [List.length_append] at hl
  refine ⟨_, ?_, h2, rfl⟩
  simp only [skip]
  rw [if_neg (by omega)]; rfl

theorem reads_pure {α : Type} (a : α) : Reads (fun _ c => .ok (a, c)) [] a := by
  intro p c rest h
  exact ⟨c, rfl, h, by simp⟩

theorem reads_bind {α β : Type} {R : Reader α} {f : α → Reader β} {b1 b2 : List Byte} {a : α} {b : β}
    (h1 : Reads R b1 a) (h2 : Reads (f a) b2 b) : Reads (rbind R f) (b1 ++ b2) b := by
  intro p c rest h
  rw [List.append_assoc] at h
  obtain ⟨c1, e1, a1, p1⟩ := h1 p c _ h
  obtain ⟨c2, e2, a2, p2⟩ := h2 p c1 _ a1
  refine ⟨c2, ?_, a2, ?_⟩
  · simp [rbind, e1, e2]
  · rw [p2, p1, List.length_append]; omega

/-- The bytes of run-length pairs. -/
def pairBytes (ps : List (Nat × Nat)) : List Byte :=
  (ps.flatMap (fun p => [beBytes 1 p.1, beBytes 2 p.2])).flatten

theorem reads_pairs (ps : List (Nat × Nat)) (h : ∀ q ∈ ps, q.1 < 256 ∧ q.2 < 65536) :
    Reads (fun p c => readPairs p ps.length c) (pairBytes ps) ps := by
  induction ps with
  | nil => exact reads_pure []
  | cons q t ih =>
    obtain ⟨hq1, hq2⟩ := h q (by simp)
    have ih := ih (fun x hx => h x (by simp [hx]))
    rw [List.length_cons, readPairs_eq]
    have e : pairBytes (q :: t) = beBytes 1 q.1 ++ (beBytes 2 q.2 ++ (pairBytes t ++ [])) := by
      simp [pairBytes]
    rw [e]
    have r1 := reads_int 1 q.1
    have r2 := reads_int 2 q.2
    rw [Nat.mod_eq_of_lt (by simpa using hq1)] at r1
    rw [Nat.mod_eq_of_lt (by simpa using hq2)] at r2
    exact reads_bind r1 (reads_bind r2 (reads_bind ih (reads_pure _)))

/-! ## Identifier lists -/

theorem unrle_rleGo (l : List Nat) (cur run : Nat) :
    unrle (rleGo cur run l) = List.replicate run (cur % 2 ^ 16) ++ l.map (· % 2 ^ 16) := by
  induction l generalizing cur run with
  | nil => simp [rleGo, unrle]
  | cons x t ih =>
    unfold rleGo
    split
    · rename_i h
      rw [ih, h.1, List.replicate_succ']; simp
    · have := ih x 1
      simp only [unrle, List.flatMap_cons, List.map_cons] at *
      rw [this]; simp

theorem unrle_rle (l : List Nat) : unrle (rle l) = l.map (· % 2 ^ 16) := by
  cases l with
  | nil => simp [rle, unrle]
  | cons x t => simp [rle, unrle_rleGo]

theorem rleGo_bounds (l : List Nat) (cur run : Nat) (h : run < 256) :
    ∀ q ∈ rleGo cur run l, q.1 < 256 ∧ q.2 < 65536 := by
  induction l generalizing cur run with
  | nil =>
    intro q hq
    simp only [rleGo, List.mem_singleton] at hq
    subst hq; exact ⟨h, Nat.mod_lt _ (by norm_num)⟩
  | cons x t ih =>
    unfold rleGo
    split
    · rename_i h'; exact ih _ _ (by omega)
    · intro q hq
      rcases List.mem_cons.1 hq with rfl | hq
      · exact ⟨h, Nat.mod_lt _ (by norm_num)⟩
      · exact ih _ _ (by norm_num) q hq

theorem rle_bounds (l : List Nat) : ∀ q ∈ rle l, q.1 < 256 ∧ q.2 < 65536 := by
  cases l with
  | nil => simp [rle]
  | cons x t => exact rleGo_bounds _ _ _ (by norm_num)

theorem rleGo_length (l : List Nat) (cur run : Nat) : (rleGo cur run l).length ≤ l.length + 1 := by
  induction l generalizing cur run with
  | nil => simp [rleGo]
  | cons x t ih =>
    unfold rleGo
    split
    · have := ih x (run + 1); simp only [List.length_cons]; omega
    · have := ih x 1; simp only [List.length_cons]; omega

theorem rle_length (l : List Nat) : (rle l).length ≤ l.length := by
  cases l with
  | nil => simp [rle]
  | cons x t => have := rleGo_length t x 1; simpa [rle] using this

theorem adjDiff_length (l : List Nat) (p : Nat) : (adjDiff p l).length = l.length := by
  induction l generalizing p with
  | nil => rfl
  | cons x t ih => simp [adjDiff, ih]

theorem partialSums_adjDiff (l : List Nat) (a : Nat) (hs : Sorted (a :: l))
    (hb : ∀ x ∈ a :: l, x < 2 ^ 32) (hg : SmallGaps (a :: l)) :
    partialSums a ((adjDiff a l).map (· % 2 ^ 16)) = l := by
  induction l generalizing a with
  | nil => rfl
  | cons b t ih =>
    have hab : a < b := (List.pairwise_cons.1 hs).1 b (by simp)
    have hb1 : b < 2 ^ 32 := hb b (by simp)
    have ha1 : a < 2 ^ 32 := hb a (by simp)
    have hd : b - a < 2 ^ 16 := hg.1
    have e1 : (b + 2 ^ 32 - a % 2 ^ 32) % 2 ^ 32 % 2 ^ 16 = b - a := by
      rw [Nat.mod_eq_of_lt ha1]
      have : b + 2 ^ 32 - a = (b - a) + 2 ^ 32 := by omega
      rw [this, Nat.add_mod_right, Nat.mod_eq_of_lt (a := b - a) (b := 2 ^ 32) (by omega), Nat.mod_eq_of_lt hd]
    have e2 : (a + (b - a)) % 2 ^ 32 = b := by
      rw [Nat.mod_eq_of_lt (by omega)]; omega
    simp only [adjDiff, List.map_cons, partialSums]
    rw [e1, e2, ih b (List.pairwise_cons.1 hs).2 (fun x hx => hb x (by simp [hx])) hg.2]

theorem setInsert_append (l : List Nat) (k : Nat) (h : ∀ x ∈ l, x < k) : setInsert l k = l ++ [k] := by
  induction l with
  | nil => rfl
  | cons x t ih =>
    have hx := h x (by simp)
    simp only [setInsert]
    rw [if_neg (by omega), if_neg (by omega), ih (fun y hy => h y (by simp [hy]))]; rfl

theorem foldl_setInsert_append (a l : List Nat) (h : Sorted (a ++ l)) : l.foldl setInsert a = a ++ l := by
  induction l generalizing a with
  | nil => simp
  | cons x t ih =>
    have hx : ∀ y ∈ a, y < x := fun y hy => (List.pairwise_append.1 h).2.2 y hy x (by simp)
    rw [List.foldl_cons, setInsert_append a x hx, ih _ (by simpa using h)]; simp

theorem foldl_setInsert (l : List Nat) (h : Sorted l) : l.foldl setInsert [] = l := by
  simpa using foldl_setInsert_append [] l (by simpa using h)

theorem runsFrom_le (l : List Nat) (prev gap len : Nat) : runsFrom prev gap len l ≤ l.length + 1 := by
  induction l generalizing prev gap len with
  | nil => simp [runsFrom]
  | cons x t ih =>
    unfold runsFrom
    split
    · have := ih x gap (len + 1); simp only [List.length_cons]; omega
    · have := ih x (x - prev) 1; simp only [List.length_cons]; omega

theorem nbRuns_le (l : List Nat) : nbRuns l ≤ l.length := by
  match l with
  | [] => simp [nbRuns]
  | [_] => simp [nbRuns]
  | a :: b :: t => have := runsFrom_le t b (b - a) 1; simp only [nbRuns, List.length_cons]; omega

theorem diff_eq {a b : Nat} (hab : a < b) (hb : b < 2 ^ 32) : (b + 2 ^ 32 - a % 2 ^ 32) % 2 ^ 32 = b - a := by
  rw [Nat.mod_eq_of_lt (show a < 2 ^ 32 by omega), show b + 2 ^ 32 - a = (b - a) + 2 ^ 32 by omega,
    Nat.add_mod_right, Nat.mod_eq_of_lt (by omega)]

theorem rleGo_runs (l : List Nat) (prev gap len : Nat) (hs : Sorted (prev :: l)) (hb : ∀ x ∈ l, x < 2 ^ 32) :
    (rleGo gap len (adjDiff prev l)).length = runsFrom prev gap len l := by
  induction l generalizing prev gap len with
  | nil => rfl
  | cons x t ih =>
    have hx : prev < x := (List.pairwise_cons.1 hs).1 x (by simp)
    have hs' := (List.pairwise_cons.1 hs).2
    have hb' : ∀ y ∈ t, y < 2 ^ 32 := fun y hy => hb y (by simp [hy])
    simp only [adjDiff, diff_eq hx (hb x (by simp)), rleGo, runsFrom]
    by_cases h : gap = x - prev ∧ len < 255
    · rw [if_pos h, if_pos ⟨h.1.symm, h.2⟩, ih _ _ _ hs' hb', ← h.1]
    · rw [if_neg h, if_neg (fun h' => h ⟨h'.1.symm, h'.2⟩), List.length_cons, ih _ _ _ hs' hb']; omega

theorem rle_runs (a : Nat) (t : List Nat) (hs : Sorted (a :: t)) (hb : ∀ x ∈ a :: t, x < 2 ^ 32) :
    (rle (adjDiff a t)).length = nbRuns (a :: t) := by
  cases t with
  | nil => rfl
  | cons b t =>
    have hx : a < b := (List.pairwise_cons.1 hs).1 b (by simp)
    simp only [adjDiff, rle, nbRuns, diff_eq hx (hb b (by simp))]
    exact rleGo_runs _ _ _ _ (List.pairwise_cons.1 hs).2 (fun x hx => hb x (by simp [hx]))

theorem reads_ids (ids : List Nat) (h : WireIds ids) : Reads readIds (writeIds ids).flatten ids := by
  rw [readIds_eq]
  cases ids with
  | nil =>
    have e : (writeIds []).flatten = beBytes 2 0 ++ [] := by simp [writeIds]
    rw [e]
    have r := reads_int 2 0
    rw [Nat.zero_mod] at r
    refine reads_bind r ?_
    rw [if_pos rfl]; exact reads_pure []
  | cons a t =>
    obtain ⟨hs, hb, hg, hl⟩ := h
    have hlen : (rle (adjDiff a t)).length + 1 < 65536 := by
      rw [rle_runs a t hs hb]; exact hl
    have e : (writeIds (a :: t)).flatten = beBytes 2 ((rle (adjDiff a t)).length + 1) ++
        (beBytes 4 a ++ (pairBytes (rle (adjDiff a t)) ++ [])) := by
      simp [writeIds, pairBytes]
    rw [e]
    have r1 := reads_int 2 ((rle (adjDiff a t)).length + 1)
    rw [Nat.mod_eq_of_lt (by simpa using hlen)] at r1
    have r2 := reads_int 4 a
    rw [Nat.mod_eq_of_lt (by have := hb a (by simp); simpa using this)] at r2
    refine reads_bind r1 ?_
    rw [if_neg (by omega)]
    refine reads_bind r2 (reads_bind (reads_pairs _ (rle_bounds _)) ?_)
    have ha : a < 2 ^ 32 := hb a (by simp)
    have : (partialSums 0 (a :: unrle (rle (adjDiff a t)))).foldl setInsert [] = a :: t := by
      simp only [partialSums, Nat.zero_add, Nat.mod_eq_of_lt ha]
      rw [unrle_rle, partialSums_adjDiff t a hs hb hg, foldl_setInsert _ hs]
    rw [this]; exact reads_pure _

/-! ## Packets -/

theorem reads_source_head (s : ESource) (hi : s.id < 2 ^ 32) (hl : s.sym.length < 2 ^ 16) :
    Reads headReader (writeSource s).flatten (s.id, s.sym.length) := by
  have e : (writeSource s).flatten = beBytes 1 2 ++ (beBytes 4 s.id ++ (beBytes 2 s.sym.length ++ (s.sym ++ []))) := by
    simp [writeSource]
  rw [e]
  have r2 := reads_int 4 s.id
  rw [Nat.mod_eq_of_lt (by simpa using hi)] at r2
  have r3 := reads_int 2 s.sym.length
  rw [Nat.mod_eq_of_lt (by simpa using hl)] at r3
  exact reads_bind (reads_int 1 2) (reads_bind r2 (reads_bind r3 (reads_bind (reads_skip _) (reads_pure _))))

theorem readSource_writeSource (s : ESource) (hi : s.id < 2 ^ 32) (hl : s.sym.length < 2 ^ 16) :
    readSource (writeSource s).flatten
      = .ok ({ id := s.id, sym := s.sym }, (writeSource s).flatten.length) := by
  have h := reads_source_head s hi hl (writeSource s).flatten (whole _) [] (by rw [List.append_nil]; exact at_whole _)
  obtain ⟨c', e, _, hp⟩ := h
  rw [readSource_eq, e]
  simp only [Except.map, Except.ok.injEq, Prod.mk.injEq, DSource.mk.injEq, true_and]
  constructor
  · have : (writeSource s).flatten = (beBytes 1 2 ++ beBytes 4 s.id ++ beBytes 2 s.sym.length) ++ s.sym := by
      simp [writeSource]
    rw [this, List.drop_append_of_le_length (by simp [beBytes_length, headerSize]),
      List.drop_of_length_le (by simp [beBytes_length, headerSize])]
    simp
  · rw [hp]; simp [whole]

theorem readAck_writeAck (a : Ack) (hn : a.nbPackets < 2 ^ 16) (hi : WireIds a.ids) :
    readAck (writeAck a).flatten = .ok (a, (writeAck a).flatten.length) := by
  have e : (writeAck a).flatten = beBytes 1 0 ++ (beBytes 2 a.nbPackets ++ ((writeIds a.ids).flatten ++ [])) := by
    simp [writeAck]
  have r2 := reads_int 2 a.nbPackets
  rw [Nat.mod_eq_of_lt (by simpa using hn)] at r2
  have h : Reads ackReader (writeAck a).flatten a := by
    rw [e]
    exact reads_bind (reads_int 1 0) (reads_bind r2 (reads_bind (reads_ids _ hi) (reads_pure _)))
  obtain ⟨c', e, _, hp⟩ := h (writeAck a).flatten (whole _) [] (by rw [List.append_nil]; exact at_whole _)
  rw [readAck_eq, e]
  simp only [Except.map, hp, whole, Nat.zero_add]

theorem writeRepair_split (r : ERepair) : (writeRepair r).flatten =
    (beBytes 1 1 ++ (beBytes 4 r.id ++ (beBytes 2 r.sym.length ++ (r.sym ++ [])))
      ++ ((writeIds r.ids).flatten ++ (beBytes 2 r.encSize.toNat ++ []))) ++
      (beBytes 2 r.sym.length ++ r.sym) := by
  simp [writeRepair]

theorem readRepair_writeRepair (r : ERepair) (hi : r.id < 2 ^ 32) (hids : WireIds r.ids)
    (hl : r.sym.length < 2 ^ 16) :
    readRepair (writeRepair r).flatten = .ok
      ({ id := r.id, ids := r.ids, encSize := r.encSize, symSize := r.sym.length,
         buf := r.sym ++ ((writeIds r.ids).flatten ++ beBytes 2 r.encSize.toNat ++ beBytes 2 r.sym.length ++ r.sym) },
        (writeRepair r).flatten.length - (2 + r.sym.length)) := by
  have r2 := reads_int 4 r.id
  rw [Nat.mod_eq_of_lt (by simpa using hi)] at r2
  have r3 := reads_int 2 r.sym.length
  rw [Nat.mod_eq_of_lt (by simpa using hl)] at r3
  have r4 := reads_int 2 r.encSize.toNat
  rw [Nat.mod_eq_of_lt (by simpa using r.encSize.isLt)] at r4
  have h : Reads repairReader ((beBytes 1 1 ++ (beBytes 4 r.id ++ (beBytes 2 r.sym.length ++ (r.sym ++ [])))
      ++ ((writeIds r.ids).flatten ++ (beBytes 2 r.encSize.toNat ++ []))))
      ((r.id, r.sym.length), r.ids, r.encSize.toNat) := by
    refine reads_bind (a := (r.id, r.sym.length)) ?_ (reads_bind (reads_ids _ hids) (reads_bind r4 (reads_pure _)))
    exact reads_bind (reads_int 1 1) (reads_bind r2 (reads_bind r3 (reads_bind (reads_skip _) (reads_pure _))))
  obtain ⟨c', e, _, hp⟩ := h (writeRepair r).flatten (whole _) _ (by
    rw [← writeRepair_split]; exact at_whole _)
  rw [readRepair_eq, e]
  simp only [Except.map, hp, whole, Nat.zero_add, Except.ok.injEq, Prod.mk.injEq, DRepair.mk.injEq, true_and,
    and_true, BitVec.ofNat_toNat]
  refine ⟨⟨by simp, ?_⟩, ?_⟩
  · have : (writeRepair r).flatten = (beBytes 1 1 ++ beBytes 4 r.id ++ beBytes 2 r.sym.length) ++
      (r.sym ++ ((writeIds r.ids).flatten ++ beBytes 2 r.encSize.toNat ++ beBytes 2 r.sym.length ++ r.sym)) := by
      simp [writeRepair]
    rw [this, List.drop_append_of_le_length (by simp [beBytes_length, headerSize]),
      List.drop_of_length_le (by simp [beBytes_length, headerSize])]
    simp
  · rw [writeRepair_split]
    simp only [List.length_append, beBytes_length]
    omega

theorem getPacketType_source (s : ESource) : getPacketType (writeSource s).flatten = .ok .source := by
  simp [writeSource, beBytes, getPacketType]

theorem getPacketType_repair (r : ERepair) : getPacketType (writeRepair r).flatten = .ok .repair := by
  simp [writeRepair, beBytes, getPacketType]

theorem getPacketType_ack (a : Ack) : getPacketType (writeAck a).flatten = .ok .ack := by
  simp [writeAck, beBytes, getPacketType]

end Netcode
