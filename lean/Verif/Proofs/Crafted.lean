import Verif.Spec.Crafted
import Verif.Proofs.Hostile
import Verif.Proofs.Notify
import Verif.Proofs.EncHist
import Verif.Proofs.Trail
import Verif.Proofs.DecFrame
import Verif.Proofs.DecLow

/-!
# Repairs that somebody made up: lemmas
-/

set_option linter.unusedSectionVars false

namespace Netcode

open OMap

variable {w : Nat}

/-- A decoder that holds no repair; each source is where its identifier says. -/
structure Idle (s : Dec) : Prop extends SrcOnly s where
  sk : SortedKeys s.sources
  keyed : ∀ x v, s.sources.get? x = some v → v.id = x
  un : s.inOrder = false → s.ordered = []

theorem idle_init (io : Bool) : Idle (Dec.init io) :=
  ⟨⟨rfl, rfl, List.Pairwise.nil, by simp [Dec.init], by simp [Dec.init]⟩, List.Pairwise.nil, by simp [Dec.init], fun _ => rfl⟩

/-! ## Out -/

theorem cassert_iff (dbg b : Bool) : cassert dbg b = .ok () ↔ (dbg = true → b = true) := by
  unfold cassert
  cases dbg <;> cases b <;> simp

theorem ensure_iff (b : Bool) (k : UB) : ensure b k = .ok () ↔ b = true := by
  unfold ensure
  cases b <;> simp

theorem gfMultiply_iff (gf : GF w) (src : List Byte) (len : Nat) (c : BitVec w) :
    (∃ r, gfMultiply gf src len c = .ok r) ↔ len ≤ src.length ∧ 8 * len % w = 0 := by
  unfold gfMultiply ensure
  by_cases h1 : len ≤ src.length <;> by_cases h2 : 8 * len % w = 0 <;> simp [h1, h2, bind, Except.bind, pure, Except.pure]

theorem gfMultiplyAdd_iff (gf : GF w) (src dst : List Byte) (c : BitVec w) :
    (∃ r, gfMultiplyAdd gf src dst src.length c = .ok r) ↔ src.length ≤ dst.length ∧ 8 * src.length % w = 0 := by
  unfold gfMultiplyAdd ensure
  by_cases h1 : src.length ≤ dst.length <;> by_cases h2 : 8 * src.length % w = 0 <;> simp [h1, h2, bind, Except.bind, pure, Except.pure]

theorem removeData_iff (gf : GF w) (dbg : Bool) (src : DSource) (r : DRepair) (hl : 1 < r.ids.length) (hs : r.symSize ≤ r.buf.length) :
    (∃ r', removeData gf dbg src r = .ok r') ↔ r.Takes w dbg src.sym.length := by
  unfold DRepair.Takes
  constructor
  · rintro ⟨r', h⟩
    simp only [removeData, bind_ok_iff, pure_ok_iff] at h
    obtain ⟨_, -, ⟨⟩, h2, b, h3, -⟩ := h
    rw [cassert_iff] at h2
    have := (gfMultiplyAdd_iff gf src.sym r.buf _).1 ⟨b, h3⟩
    refine ⟨?_, this.2⟩
    cases dbg with
    | false => exact this.1
    | true => simpa using h2
  · rintro ⟨h1, h2⟩
    have hb : src.sym.length ≤ r.buf.length := by
      cases dbg with
      | false => exact h1
      | true => exact Nat.le_trans h1 hs
    obtain ⟨b, h3⟩ := (gfMultiplyAdd_iff gf src.sym r.buf (coefficient w r.id src.id)).2 ⟨hb, h2⟩
    have c1 : cassert dbg (decide (r.ids.length > 1)) = .ok () := (cassert_iff _ _).2 (fun _ => by simpa using hl)
    have c2 : cassert dbg (decide (src.sym.length ≤ r.symSize)) = .ok () := (cassert_iff _ _).2 (fun h => by subst h; simpa using h1)
    unfold removeData
    rw [c1, c2]
    simp only [bind, Except.bind, h3]
    exact ⟨_, rfl⟩

theorem removeData_inv {gf : GF w} {dbg : Bool} {src : DSource} {r r' : DRepair} (h : removeData gf dbg src r = .ok r') :
    r'.id = r.id ∧ r'.ids = r.ids ∧ r'.symSize = r.symSize ∧ r'.buf.length = r.buf.length ∧
      r'.encSize = mulSize gf (BitVec.ofNat 16 src.sym.length) (coefficient w r.id src.id) ^^^ r.encSize := by
  simp only [removeData, bind_ok_iff, pure_ok_iff] at h
  obtain ⟨_, -, _, -, b, h3, rfl⟩ := h
  refine ⟨rfl, rfl, rfl, ?_, rfl⟩
  simp only [gfMultiplyAdd, bind_ok_iff, pure_ok_iff] at h3
  obtain ⟨_, -, _, -, _, -, rfl⟩ := h3
  exact xorPrefix_length _ _

theorem takes_congr {dbg : Bool} {r r' : DRepair} (h1 : r'.symSize = r.symSize) (h2 : r'.buf.length = r.buf.length) (n : Nat) :
    r'.Takes w dbg n ↔ r.Takes w dbg n := by
  unfold DRepair.Takes
  rw [h1, h2]

theorem has_eq (m : OMap V) (k : Nat) : m.has k = (m.get? k).isSome := by
  rw [Bool.eq_iff_iff, has_iff, Option.isSome_iff_exists, get?_isSome_iff]

/-! ## Linking -/

/-- What the sources of a list contribute to the size of a repair. -/
def sizesOf (gf : GF w) (rid : Nat) (l : List DSource) : BitVec 16 :=
  sizeSum (l.map fun s => mulSize gf (BitVec.ofNat 16 s.sym.length) (coefficient w rid s.id))

/-- The result of the loop over the sources of a repair. -/
structure Linked (gf : GF w) (S : OMap DSource) (l : List Nat) (r : DRepair) (m : OMap (List Nat)) (z : DRepair × OMap (List Nat)) : Prop where
  id : z.1.id = r.id
  sym : z.1.symSize = r.symSize
  buf : z.1.buf.length = r.buf.length
  ids : z.1.ids = r.ids.filter (fun y => !(decide (y ∈ l) && S.has y))
  enc : z.1.encSize = r.encSize ^^^ sizesOf gf r.id (l.filterMap S.get?)
  len : z.2.length = m.length + (l.filter (fun x => !S.has x)).length
  keys : ∀ x, x ∈ z.2.map (·.1) ↔ x ∈ m.map (·.1) ∨ x ∈ l ∧ S.has x = false

theorem link_fold (gf : GF w) (dbg : Bool) (S : OMap DSource) (l : List Nat) (r : DRepair) (m : OMap (List Nat)) (hl : l.Nodup)
    (hsub : ∀ x ∈ l, x ∈ r.ids) (hn : r.ids.Nodup) (hu : ∃ u ∈ r.ids, S.has u = false) (hs : r.symSize ≤ r.buf.length)
    (hm : ∀ x ∈ l, S.has x = false → x ∉ m.map (·.1)) :
    ((∃ z, l.foldlM (linkStep gf dbg S) (r, m) = .ok z) ↔ ∀ x ∈ l, ∀ v, S.get? x = some v → r.Takes w dbg v.sym.length) ∧
      ∀ z, l.foldlM (linkStep gf dbg S) (r, m) = .ok z → Linked gf S l r m z := by
  induction l generalizing r m with
  | nil =>
    refine ⟨⟨fun _ => by simp, fun _ => ⟨_, rfl⟩⟩, fun z hz => ?_⟩
    cases hz
    exact ⟨rfl, rfl, rfl, by simp, by simp [sizesOf, sizeSum], by simp, by simp⟩
  | cons x t ih =>
    obtain ⟨hx, ht⟩ := List.nodup_cons.1 hl
    rw [List.foldlM_cons]
    cases hg : S.get? x with
    | none =>
      have hh : S.has x = false := by rw [has_eq, hg]; rfl
      have hmx := hm x (by simp) hh
      have hmf : m.has x = false := (has_false_iff _ _).2 hmx
      have hstep : linkStep gf dbg S (r, m) x = .ok (r, m.emplace x [r.id]) := by
        unfold linkStep
        simp only [hg, hmf]
        rfl
      obtain ⟨i1, i2⟩ := ih r (m.emplace x [r.id]) ht (fun y hy => hsub y (by simp [hy])) hn hu hs (fun y hy hf => by
        rw [mem_keys_emplace]
        rintro (rfl | h)
        · exact hx hy
        · exact hm y (by simp [hy]) hf h)
      rw [hstep]
      refine ⟨i1.trans ⟨fun h y hy v hv => ?_, fun h y hy => h y (by simp [hy])⟩, fun z hz => ?_⟩
      · rcases List.mem_cons.1 hy with rfl | hy
        · rw [hg] at hv; cases hv
        · exact h y hy v hv
      · obtain ⟨a1, a2, a3, a4, a5, a6, a7⟩ := i2 z hz
        refine ⟨a1, a2, a3, ?_, ?_, ?_, fun y => ?_⟩
        · rw [a4]
          refine List.filter_congr (fun y _ => ?_)
          by_cases hy : y = x
          · subst hy; simp [hh]
          · simp [hy]
        · rw [a5, List.filterMap_cons_none hg]
        · rw [a6, length_emplace _ _ _ hmx, List.filter_cons_of_pos (by simp [hh]), List.length_cons]; omega
        · rw [a7, mem_keys_emplace, List.mem_cons]
          constructor
          · rintro ((rfl | h) | h)
            · exact .inr ⟨.inl rfl, hh⟩
            · exact .inl h
            · exact .inr ⟨.inr h.1, h.2⟩
          · rintro (h | ⟨rfl | h, h'⟩)
            · exact .inl (.inr h)
            · exact .inl (.inl rfl)
            · exact .inr ⟨h, h'⟩
    | some v =>
      have hh : S.has x = true := by rw [has_eq, hg]; rfl
      have hlen : 1 < r.ids.length := by
        obtain ⟨u, hu1, hu2⟩ := hu
        have hne : u ≠ x := fun e => by rw [e, hh] at hu2; cases hu2
        have h1 := List.length_pos_of_mem ((List.mem_erase_of_ne hne).2 hu1)
        have h2 := List.length_erase_of_mem (hsub x (by simp))
        omega
      have hiff := removeData_iff gf dbg v r hlen hs
      by_cases hT : r.Takes w dbg v.sym.length
      · obtain ⟨r1, hr1⟩ := hiff.2 hT
        obtain ⟨b1, b2, b3, b4, b5⟩ := removeData_inv hr1
        have hstep : linkStep gf dbg S (r, m) x = .ok ({ r1 with ids := r1.ids.erase x }, m) := by
          unfold linkStep
          simp only [hg, hr1, bind, Except.bind]
          rfl
        have hmem : ∀ y, y ∈ (r1.ids.erase x) ↔ y ∈ r.ids ∧ y ≠ x := by
          intro y
          rw [b2, hn.mem_erase_iff, and_comm]
        obtain ⟨i1, i2⟩ := ih { r1 with ids := r1.ids.erase x } m ht
          (fun y hy => (hmem y).2 ⟨hsub y (by simp [hy]), fun e => hx (e ▸ hy)⟩)
          (by show (r1.ids.erase x).Nodup; rw [b2]; exact hn.erase x)
          (by
            obtain ⟨u, hu1, hu2⟩ := hu
            exact ⟨u, (hmem u).2 ⟨hu1, fun e => by rw [e, hh] at hu2; cases hu2⟩, hu2⟩)
          (by show r1.symSize ≤ r1.buf.length; rw [b3, b4]; exact hs)
          (fun y hy => hm y (by simp [hy]))
        rw [hstep]
        have hc : ∀ n, ({ r1 with ids := r1.ids.erase x } : DRepair).Takes w dbg n ↔ r.Takes w dbg n :=
          fun n => takes_congr (r := r) (by exact b3) (by exact b4) n
        refine ⟨i1.trans ⟨fun h y hy v' hv => ?_, fun h y hy v' hv => (hc _).2 (h y (by simp [hy]) v' hv)⟩, fun z hz => ?_⟩
        · rcases List.mem_cons.1 hy with rfl | hy
          · rw [hg] at hv; cases hv; exact hT
          · exact (hc _).1 (h y hy v' hv)
        · obtain ⟨a1, a2, a3, a4, a5, a6, a7⟩ := i2 z hz
          refine ⟨a1.trans b1, a2.trans b3, a3.trans b4, ?_, ?_, ?_, fun y => ?_⟩
          · rw [a4]
            show (r1.ids.erase x).filter _ = _
            rw [b2, hn.erase_eq_filter, List.filter_filter]
            refine List.filter_congr (fun y _ => ?_)
            by_cases hy : y = x
            · subst hy; simp [hh]
            · simp [hy]
          · rw [a5]
            show r1.encSize ^^^ sizesOf gf r1.id _ = _
            rw [b5, b1, List.filterMap_cons_some hg]
            unfold sizesOf
            rw [List.map_cons, sizeSum_cons, BitVec.xor_comm _ r.encSize, BitVec.xor_assoc]
          · rw [a6, List.filter_cons_of_neg (by simp [hh])]
          · rw [a7, List.mem_cons]
            constructor
            · rintro (h | h)
              · exact .inl h
              · exact .inr ⟨.inr h.1, h.2⟩
            · rintro (h | ⟨rfl | h, h'⟩)
              · exact .inl h
              · rw [hh] at h'; cases h'
              · exact .inr ⟨h, h'⟩
      · have hstep : ∀ z, linkStep gf dbg S (r, m) x ≠ .ok z := by
          intro z hz
          unfold linkStep at hz
          simp only [hg, bind_ok_iff] at hz
          obtain ⟨r1, hr1, -⟩ := hz
          exact hT (hiff.1 ⟨r1, hr1⟩)
        have herr : ∃ e, linkStep gf dbg S (r, m) x = .error e := by
          cases hz : linkStep gf dbg S (r, m) x with
          | error e => exact ⟨e, rfl⟩
          | ok z => exact absurd hz (hstep z)
        obtain ⟨e, he⟩ := herr
        rw [he]
        refine ⟨⟨fun hz => (by obtain ⟨z, hz⟩ := hz; cases hz), fun h => absurd (h x (by simp) v hg) hT⟩, fun z hz => by cases hz⟩

/-! ## Decoders without repairs -/

theorem addSource_total (gf : GF w) (dbg : Bool) (s : Dec) (src : DSource) (h : Idle s) (hnew : s.sources.has src.id = false) :
    ∃ s', addSource gf dbg s.fuel src s = .ok s' ∧ Idle s' := by
  obtain ⟨s1, h1, i1, e1⟩ := giveNew_total dbg src s h.toSrcOnly
  have hf : s.fuel = 5 + 1 := by unfold Dec.fuel; rw [h.rep, h.mis]; rfl
  have hhead : addSourceHead gf dbg src s = .ok s1 := by
    unfold addSourceHead
    rw [h1]
    simp only [bind, Except.bind, i1.mis]
    rfl
  have hn : src.id ∉ s1.sources.map (·.1) := by rw [e1]; exact (has_false_iff _ _).1 hnew
  have hsk : SortedKeys s1.sources := by rw [e1]; exact h.sk
  have hkeyed : ∀ x v, (s1.sources.emplace src.id src).get? x = some v → v.id = x := by
    intro x v hv
    rw [get?_emplace _ hsk _ _ hn] at hv
    split at hv
    · rename_i e; cases hv; exact e.symm
    · rw [e1] at hv; exact h.keyed x v hv
  have hun : s1.inOrder = false → s1.ordered = [] := by
    intro hio
    rw [(giveNew_ext h1).inOrder] at hio
    unfold Dec.giveNew at h1
    rw [if_pos (by rw [hio]; rfl)] at h1
    cases h1
    exact h.un hio
  have htail : ∃ s2, addSourceTail dbg src s1 = .ok s2 ∧ Idle s2 := by
    unfold addSourceTail
    rw [cassert_ok _ (by rw [e1]; simpa using hnew)]
    simp only [bind, Except.bind]
    have hk : ∀ k ∈ s1.ordered, k ∈ (s1.sources.emplace src.id src).keys :=
      fun k hk => (mem_keys_emplace _ _ _ _).2 (Or.inr (i1.src k hk))
    split
    · rename_i hc
      simp only [Bool.and_eq_true, decide_eq_true_eq] at hc
      refine ⟨_, rfl, ⟨⟨i1.rep, i1.mis, sorted_setInsert _ i1.sorted _, fun k hk' => ?_, fun k hk' => ?_⟩, sorted_emplace _ hsk _ _, hkeyed, fun hio => by
          have : s1.inOrder = false := hio
          rw [this] at hc; cases hc.1⟩⟩
      · rcases (mem_setInsert _ _ _).1 hk' with rfl | hk'
        · exact hc.2
        · exact i1.gt k hk'
      · rcases (mem_setInsert _ _ _).1 hk' with rfl | hk'
        · exact (mem_keys_emplace _ _ _ _).2 (Or.inl rfl)
        · exact hk k hk'
    · exact ⟨_, rfl, ⟨⟨i1.rep, i1.mis, i1.sorted, i1.gt, hk⟩, sorted_emplace _ hsk _ _, hkeyed, hun⟩⟩
  obtain ⟨s2, h2, i2⟩ := htail
  refine ⟨s2, ?_, i2⟩
  rw [hf]
  unfold addSource
  rw [hhead]
  simp only [bind, Except.bind]
  have hscan : scanMissing gf dbg 5 s1.missing.keys.head? s1 = .ok s1 := by
    rw [i1.mis]
    unfold scanMissing
    rfl
  rw [hscan]
  exact h2

theorem flushLoop_ordered {dbg : Bool} {l : List Nat} {s s' : Dec} (h : flushLoop dbg l s = .ok s') : ∀ k ∈ s'.ordered, k ∈ s.ordered := by
  induction l generalizing s with
  | nil => unfold flushLoop at h; cases h; exact fun _ h => h
  | cons id rest ih =>
    unfold flushLoop at h
    simp only [bind_ok_iff] at h
    obtain ⟨-, -, s1, h1, h⟩ := h
    have e1 : s1.ordered = s.ordered := by
      unfold Dec.callbackOrdered at h1
      split at h1
      · cases h1
      · cases h1; rfl
    cases rest with
    | nil =>
      cases h
      intro k hk
      have : k ∈ s1.ordered := List.mem_of_mem_erase hk
      rw [e1] at this; exact this
    | cons nxt t =>
      simp only at h
      have key : ∀ k ∈ s1.ordered.erase id, k ∈ s.ordered := fun k hk => by rw [← e1]; exact List.mem_of_mem_erase hk
      split at h
      · cases h; exact key
      · exact fun k hk => key k (ih h k hk)

theorem flush_ordered {dbg : Bool} {s s' : Dec} (h : s.flush dbg = .ok s') : ∀ k ∈ s'.ordered, k ∈ s.ordered := by
  unfold Dec.flush at h
  split at h
  · exact flushLoop_ordered h
  · cases h; exact fun _ h => h

theorem giveOutdated_total (l : List Nat) (s : Dec) (h : ∀ k ∈ l, k ∈ s.sources.keys) :
    ∃ lg, giveOutdated l s = .ok { s with ordered := l.foldl List.erase s.ordered, log := lg } := by
  induction l generalizing s with
  | nil => exact ⟨s.log, rfl⟩
  | cons k t ih =>
    obtain ⟨src, hcb⟩ := callbackOrdered_total (s := s) (k := k) (h k (by simp))
    obtain ⟨lg, hlg⟩ := ih { s.callback src with ordered := s.ordered.erase k } (fun y hy => h y (by simp [hy]))
    refine ⟨lg, ?_⟩
    unfold giveOutdated
    rw [hcb]
    exact hlg

theorem foldl_erase_takeWhile (l : List Nat) (p : Nat → Bool) : (l.takeWhile p).foldl List.erase l = l.dropWhile p := by
  induction l with
  | nil => rfl
  | cons a t ih =>
    by_cases ha : p a = true
    · rw [List.takeWhile_cons_of_pos ha, List.dropWhile_cons_of_pos ha, List.foldl_cons, List.erase_cons_head, ih]
    · rw [List.takeWhile_cons_of_neg ha, List.dropWhile_cons_of_neg ha]; rfl

theorem dropWhile_ge {l : List Nat} (h : Sorted l) (id : Nat) : ∀ k ∈ l.dropWhile (fun k => decide (k < id)), id ≤ k := by
  induction l with
  | nil => simp
  | cons a t ih =>
    have hc := List.pairwise_cons.1 h
    by_cases ha : a < id
    · rw [List.dropWhile_cons_of_pos (by simpa using ha)]
      exact ih hc.2
    · rw [List.dropWhile_cons_of_neg (by simpa using ha)]
      intro k hk
      rcases List.mem_cons.1 hk with rfl | hk
      · omega
      · have := hc.1 k hk; omega

theorem dropOutdated_idle (dbg : Bool) (id : Nat) (s : Dec) (h : Idle s) :
    ∃ s', s.dropOutdated dbg id = .ok s' ∧ Idle s' ∧ s'.sources = s.sources.eraseBelow id := by
  have hdrop : dropRepairs dbg id s.repairs { s with lastId := some id } = .ok { s with lastId := some id } := by
    rw [h.rep]; unfold dropRepairs; rfl
  have hgive : ∃ s1, Dec.giveAllOutdated dbg id { s with lastId := some id } = .ok s1 ∧ SrcOnly s1 ∧ s1.sources = s.sources ∧
      (∀ k ∈ s1.ordered, id ≤ k) ∧ (s1.inOrder = false → s1.ordered = []) := by
    unfold Dec.giveAllOutdated
    rcases Bool.eq_false_or_eq_true s.inOrder with hio | hio
    rotate_left
    · rw [if_neg (by simp [hio])]
      exact ⟨_, rfl, ⟨h.rep, h.mis, h.sorted, h.gt, h.src⟩, rfl, by simp [h.un hio], fun _ => h.un hio⟩
    · rw [if_pos hio]
      obtain ⟨lg, hlg⟩ := giveOutdated_total (s.ordered.takeWhile (fun k => decide (k < id))) { s with lastId := some id }
        (fun k hk => h.src k ((List.takeWhile_sublist _).subset hk))
      simp only [foldl_erase_takeWhile] at hlg
      have hsub := (List.dropWhile_sublist (fun k => decide (k < id)) (l := s.ordered))
      have hge := dropWhile_ge h.sorted id
      rw [hlg]
      simp only [bind, Except.bind]
      obtain ⟨s1, h1, i1, e1⟩ := flush_total dbg { s with
        lastId := some id, ordered := s.ordered.dropWhile (fun k => decide (k < id)), log := lg,
        firstMissing := if s.firstMissing < id then id else s.firstMissing }
        ⟨h.rep, h.mis, h.sorted.sublist hsub, fun k hk => by
          have h1 := hge k hk
          have h2 := h.gt k (hsub.subset hk)
          show (if s.firstMissing < id then id else s.firstMissing) ≤ k
          split <;> omega, fun k hk => h.src k (hsub.subset hk)⟩
      refine ⟨s1, h1, i1, e1, fun k hk => hge k (flush_ordered h1 k hk), fun hf => ?_⟩
      have := (flush_ext h1).inOrder
      rw [hf] at this
      rw [show s.inOrder = false from this.symm] at hio
      cases hio
  obtain ⟨s1, h1, i1, e1, o1, u1⟩ := hgive
  unfold Dec.dropOutdated
  simp only [hdrop, bind, Except.bind, h1]
  refine ⟨_, rfl, ⟨⟨i1.rep, ?_, i1.sorted, i1.gt, fun k hk => ?_⟩, ?_, fun x v hv => ?_, u1⟩, ?_⟩
  · show s1.missing.eraseBelow id = []
    rw [i1.mis]; rfl
  · exact (mem_keys_eraseBelow _ _ _).2 ⟨i1.src k hk, o1 k hk⟩
  · show SortedKeys (s1.sources.eraseBelow id)
    rw [e1]; exact sorted_eraseBelow h.sk id
  · have hv : (s1.sources.eraseBelow id).get? x = some v := hv
    rw [e1, OMap.get?_eraseBelow] at hv
    split at hv
    · exact h.keyed x v hv
    · cases hv
  · show s1.sources.eraseBelow id = _
    rw [e1]

theorem sizeSum_perm_low {l l' : List (BitVec 16)} (h : l.Perm l') : sizeSum l = sizeSum l' := by
  induction h with
  | nil => rfl
  | cons x _ ih => rw [sizeSum_cons, sizeSum_cons, ih]
  | swap x y l => rw [sizeSum_cons, sizeSum_cons, sizeSum_cons, sizeSum_cons, ← BitVec.xor_assoc, BitVec.xor_comm y x,
      BitVec.xor_assoc]
  | trans _ _ h1 h2 => exact h1.trans h2

theorem sorted_last {l : List Nat} (h : Sorted l) {a : Nat} (ha : l.getLast? = some a) (b : Nat) : (∀ x ∈ l, x < b) ↔ a < b := by
  constructor
  · exact fun hx => hx a (List.mem_of_getLast? ha)
  · intro hab x hx
    obtain ⟨t, rfl⟩ : ∃ t, l = t ++ [a] := ⟨l.dropLast, (List.dropLast_append_getLast? a ha).symm⟩
    rcases List.mem_append.1 hx with hx | hx
    · exact Nat.lt_trans ((List.pairwise_append.1 h).2.2 x hx a (by simp)) hab
    · simp at hx; omega

theorem sizesOf_perm {gf : GF w} {rid : Nat} {l l' : List DSource} (h : l.Perm l') : sizesOf gf rid l = sizesOf gf rid l' := by
  unfold sizesOf
  exact sizeSum_perm_low (h.map _)

theorem createSource_iff (gf : GF w) (dbg : Bool) (r : DRepair) (x : Nat) (hids : r.ids = [x]) :
    (∃ v, createSource gf dbg r = .ok v) ↔
      (mulSize gf r.encSize (gf.inv (coefficient w r.id x))).toNat ≤ r.buf.length ∧
        8 * (mulSize gf r.encSize (gf.inv (coefficient w r.id x))).toNat % w = 0 := by
  rw [← gfMultiply_iff gf r.buf _ (gf.inv (coefficient w r.id x))]
  unfold createSource gfInvert
  rw [hids, cassert_ok _ (by simp)]
  simp only [bind, Except.bind]
  cases gfMultiply gf r.buf _ (gf.inv (coefficient w r.id x)) with
  | error e => simp
  | ok y => simp [pure, Except.pure]

theorem createSource_one {gf : GF w} {dbg : Bool} {r : DRepair} {x : Nat} (hids : r.ids = [x]) {v : DSource}
    (h : createSource gf dbg r = .ok v) : v.id = x := by
  unfold createSource at h
  rw [hids] at h
  simp only [bind_ok_iff, pure_ok_iff] at h
  obtain ⟨_, -, _, -, rfl⟩ := h
  rfl

/-- A repair that comes to a decoder without repairs. -/
theorem onRepair_idle (gf : GF w) (dbg : Bool) (s : Dec) (r : DRepair) (h : Idle s) (hsort : Sorted r.ids)
    (hs : r.symSize ≤ r.buf.length) :
    ((∃ s', s.onRepair gf dbg r = .ok s') ↔ r.Harmless gf dbg s.lastId s.sources) ∧
      ∀ s', s.onRepair gf dbg r = .ok s' → Idle s' ∨ 2 ≤ (r.unknown s.sources).length ∧ s'.repairs.length = 1 := by
  have hnd : r.ids.Nodup := hsort.imp (fun h => Nat.ne_of_lt h)
  cases hids : r.ids with
  | nil =>
    have herr : ∃ e, s.onRepair gf dbg r = .error e := by
      unfold Dec.onRepair
      cases dbg with
      | true => exact ⟨.assertion, by simp [hids, cassert, bind, Except.bind]⟩
      | false => exact ⟨.ub .derefEnd, by simp [hids, cassert, bind, Except.bind]⟩
    obtain ⟨e, he⟩ := herr
    refine ⟨⟨fun hz => (by obtain ⟨z, hz⟩ := hz; rw [he] at hz; cases hz), fun hz => absurd hids hz.1⟩, fun z hz => by rw [he] at hz; cases hz⟩
  | cons fst rest =>
    have hne : r.ids ≠ [] := by rw [hids]; simp
    obtain ⟨lst, hlst⟩ : ∃ a, r.ids.getLast? = some a := by
      exact ⟨_, List.getLast?_eq_getLast_of_ne_nil hne⟩
    have hhead : r.ids.head? = some fst := by rw [hids]; rfl
    have hc1 : cassert dbg (!r.ids.isEmpty) = .ok () := cassert_ok _ (by rw [hids]; rfl)
    unfold DRepair.Harmless
    by_cases hout : s.lastId.any (fun l => decide (lst < l)) = true
    · have hok : s.onRepair gf dbg r = .ok s := by
        unfold Dec.onRepair
        rw [hc1, hlst, hhead]
        simp only [bind, Except.bind]
        rw [if_pos hout]
        rfl
      refine ⟨⟨fun _ => ⟨hne, .inl ?_⟩, fun _ => ⟨s, hok⟩⟩, fun z hz => ?_⟩
      · obtain ⟨l, hl, hlt⟩ := (Option.any_eq_true _ _).1 hout
        exact ⟨l, hl, (sorted_last hsort hlst l).2 (by simpa using hlt)⟩
      · rw [hok] at hz; cases hz; exact .inl h
    have hnot : ¬ ∃ l, s.lastId = some l ∧ ∀ x ∈ r.ids, x < l := by
      rintro ⟨l, hl, hx⟩
      refine hout ?_
      rw [hl]
      simpa using (sorted_last hsort hlst l).1 hx
    have hrep : s.repairs.has r.id = false := by rw [h.rep]; rfl
    obtain ⟨s1, h1, i1, e1⟩ := dropOutdated_idle dbg fst s h
    have hge : ∀ x ∈ r.ids, fst ≤ x := by
      intro x hx
      rw [hids] at hx hsort
      rcases List.mem_cons.1 hx with rfl | hx
      · exact Nat.le_refl _
      · exact Nat.le_of_lt ((List.pairwise_cons.1 hsort).1 x hx)
    have hget : ∀ x ∈ r.ids, s1.sources.get? x = s.sources.get? x := by
      intro x hx
      rw [e1, OMap.get?_eraseBelow, if_pos (hge x hx)]
    have hhas : ∀ x ∈ r.ids, s1.sources.has x = s.sources.has x := fun x hx => by rw [has_eq, has_eq, hget x hx]
    have hstart : s.onRepair gf dbg r = (do
        if r.ids.all (fun x => s1.sources.has x) then return { s1 with nbUseless := s1.nbUseless + 1 }
        let (r', missing) ← r.ids.reverse.foldlM (linkStep gf dbg s1.sources) (r, s1.missing)
        cassert dbg (!r'.ids.isEmpty)
        let s2 := { s1 with repairs := s1.repairs.emplace r'.id r', missing := missing }
        if r'.ids.length = 1 then
          let src ← createSource gf dbg r'
          let s3 := { s2 with nbDecoded := s2.nbDecoded + 1, missing := s2.missing.erase src.id, repairs := s2.repairs.erase r'.id }
          addSource gf dbg s3.fuel src s3
        else s2.fullDecode gf dbg) := by
      unfold Dec.onRepair
      rw [hc1, hlst, hhead]
      simp only [bind, Except.bind]
      rw [if_neg hout, if_neg (by rw [hrep]; simp), h1]
      simp only
      have hal : linksAlive s1.repairs s1.missing (r.ids.filter (fun x => !s1.sources.has x)) = true := by
        unfold linksAlive
        rw [i1.mis]
        simp
      rw [hal]
      rfl
    by_cases hall : r.ids.all (fun x => s1.sources.has x) = true
    · have hok : s.onRepair gf dbg r = .ok { s1 with nbUseless := s1.nbUseless + 1 } := by
        rw [hstart, if_pos hall]; rfl
      refine ⟨⟨fun _ => ⟨hne, .inr (.inl ?_)⟩, fun _ => ⟨_, hok⟩⟩, fun z hz => ?_⟩
      · unfold DRepair.unknown
        rw [List.filter_eq_nil_iff]
        intro x hx
        have := List.all_eq_true.1 hall x hx
        rw [hhas x hx] at this
        simp [this]
      · rw [hok] at hz; cases hz
        exact .inl ⟨⟨i1.rep, i1.mis, i1.sorted, i1.gt, i1.src⟩, i1.sk, i1.keyed, i1.un⟩
    have hunk : r.ids.filter (fun x => !s1.sources.has x) = r.unknown s.sources :=
      List.filter_congr (fun x hx => by rw [hhas x hx])
    have hkn : r.ids.filterMap s1.sources.get? = r.known s.sources := by
      unfold DRepair.known
      exact List.filterMap_congr (fun x hx => hget x hx)
    have hu : ∃ u ∈ r.ids, s1.sources.has u = false := by
      rw [Bool.not_eq_true, List.all_eq_false] at hall
      obtain ⟨x, hx, hf⟩ := hall
      exact ⟨x, hx, by simpa using hf⟩
    have hune : r.unknown s.sources ≠ [] := by
      obtain ⟨u, hu1, hu2⟩ := hu
      rw [← hunk]
      exact List.ne_nil_of_mem (List.mem_filter.2 ⟨hu1, by simp [hu2]⟩)
    obtain ⟨f1, f2⟩ := link_fold gf dbg s1.sources r.ids.reverse r s1.missing (List.nodup_reverse.2 hnd) (by simp) hnd hu hs
      (by rw [i1.mis]; simp)
    have f3 : (∀ x ∈ r.ids.reverse, ∀ v, s1.sources.get? x = some v → r.Takes w dbg v.sym.length) ↔
        ∀ v ∈ r.known s.sources, r.Takes w dbg v.sym.length := by
      rw [← hkn]
      constructor
      · intro hh v hv
        obtain ⟨x, hx, hg⟩ := List.mem_filterMap.1 hv
        exact hh x (by simpa using hx) v hg
      · intro hh x hx v hg
        exact hh v (List.mem_filterMap.2 ⟨x, by simpa using hx, hg⟩)
    rw [f3] at f1
    by_cases hT : ∀ v ∈ r.known s.sources, r.Takes w dbg v.sym.length
    rotate_left
    · have herr : ∃ e, s.onRepair gf dbg r = .error e := by
        rw [hstart, if_neg hall]
        cases hz : r.ids.reverse.foldlM (linkStep gf dbg s1.sources) (r, s1.missing) with
        | error e => exact ⟨e, rfl⟩
        | ok z => exact absurd (f1.1 ⟨z, hz⟩) hT
      obtain ⟨e, he⟩ := herr
      refine ⟨⟨fun hz => (by obtain ⟨z, hz⟩ := hz; rw [he] at hz; cases hz), fun hz => ?_⟩, fun z hz => by rw [he] at hz; cases hz⟩
      rcases hz.2 with hz | hz | hz
      · exact absurd hz hnot
      · exact absurd hz hune
      · exact absurd hz.1 hT
    obtain ⟨⟨r', mis⟩, hz⟩ := f1.2 hT
    obtain ⟨a1, a2, a3, a4, a5, a6, a7⟩ := f2 _ hz
    simp only at a1 a2 a3 a4 a5 a6 a7
    have hr' : r'.ids = r.unknown s.sources := by
      rw [a4, ← hunk]
      refine List.filter_congr (fun y hy => ?_)
      simp [hy]
    have hc2 : cassert dbg (!r'.ids.isEmpty) = .ok () := cassert_ok _ (by
      rw [hr']
      cases hx : r.unknown s.sources with
      | nil => exact absurd hx hune
      | cons _ _ => rfl)
    have hrest : s.onRepair gf dbg r = (do
        let s2 := { s1 with repairs := s1.repairs.emplace r'.id r', missing := mis }
        if r'.ids.length = 1 then
          let src ← createSource gf dbg r'
          let s3 := { s2 with nbDecoded := s2.nbDecoded + 1, missing := s2.missing.erase src.id, repairs := s2.repairs.erase r'.id }
          addSource gf dbg s3.fuel src s3
        else s2.fullDecode gf dbg) := by
      rw [hstart, if_neg hall, hz]
      simp only [bind, Except.bind, hc2]
    clear hstart
    have henc : r'.encSize = r.encSize ^^^ sizesOf gf r.id (r.known s.sources) := by
      rw [a5, ← hkn]
      congr 1
      refine sizesOf_perm ?_
      exact (List.reverse_perm _).filterMap _
    by_cases h1' : r'.ids.length = 1
    · obtain ⟨x, hx⟩ := List.length_eq_one_iff.1 h1'
      have hcs := createSource_iff gf dbg r' x hx
      rw [henc, a1, a3] at hcs
      have hsz : (mulSize gf (r.encSize ^^^ sizesOf gf r.id (r.known s.sources)) (gf.inv (coefficient w r.id x))).toNat =
          r.sizeOf gf (r.known s.sources) x := rfl
      rw [hsz] at hcs
      rw [if_pos h1'] at hrest
      have hun : r.unknown s.sources = [x] := by rw [← hr', hx]
      by_cases hok : r.sizeOf gf (r.known s.sources) x ≤ r.buf.length ∧ 8 * r.sizeOf gf (r.known s.sources) x % w = 0
      · obtain ⟨v, hv⟩ := hcs.2 hok
        have hvid := createSource_one hx hv
        rw [hv] at hrest
        have hxu : x ∈ r.ids ∧ s1.sources.has x = false := by
          have : x ∈ r.ids.filter (fun x => !s1.sources.has x) := by rw [hunk, hun]; simp
          simpa using List.mem_filter.1 this
        have hmis : mis.erase v.id = [] := by
          have hml : mis.length = 1 := by
            rw [a6, i1.mis, List.filter_reverse, List.length_reverse, hunk, hun]; rfl
          obtain ⟨⟨y, e⟩, rfl⟩ := List.length_eq_one_iff.1 hml
          have := (a7 x).2 (.inr ⟨by simpa using hxu.1, hxu.2⟩)
          simp at this
          rw [hvid, this]
          simp [OMap.erase]
        have hrp : (s1.repairs.emplace r'.id r').erase r'.id = [] := by
          rw [i1.rep]; simp [emplace, erase]
        obtain ⟨s4, h4, i4⟩ := addSource_total gf dbg { s1 with nbDecoded := s1.nbDecoded + 1, missing := [], repairs := [] } v
          ⟨⟨rfl, rfl, i1.sorted, i1.gt, i1.src⟩, i1.sk, i1.keyed, i1.un⟩ (by
            rw [hvid]; exact hxu.2)
        have hfin : s.onRepair gf dbg r = .ok s4 := by
          rw [hrest]
          simp only [bind, Except.bind, hmis, hrp]
          exact h4
        refine ⟨⟨fun _ => ⟨hne, .inr (.inr ⟨hT, fun y hy => ?_⟩)⟩, fun _ => ⟨_, hfin⟩⟩, fun z hz => ?_⟩
        · rw [hun] at hy; cases hy; exact hok
        · rw [hfin] at hz; cases hz; exact .inl i4
      · have herr : ∃ e, s.onRepair gf dbg r = .error e := by
          rw [hrest]
          cases hz : createSource gf dbg r' with
          | error e => exact ⟨e, rfl⟩
          | ok z => exact absurd (hcs.1 ⟨z, hz⟩) hok
        obtain ⟨e, he⟩ := herr
        refine ⟨⟨fun hz => (by obtain ⟨z, hz⟩ := hz; rw [he] at hz; cases hz), fun hz => ?_⟩, fun z hz => by rw [he] at hz; cases hz⟩
        rcases hz.2 with hz | hz | hz
        · exact absurd hz hnot
        · exact absurd hz hune
        · exact absurd (hz.2 x hun) hok
    · have hlen : 2 ≤ (r.unknown s.sources).length := by
        rw [← hr']
        have : r'.ids ≠ [] := by rw [hr']; exact hune
        have := List.length_pos_of_ne_nil this
        omega
      have hml : mis.length = (r.unknown s.sources).length := by
        rw [a6, i1.mis, ← hunk, List.filter_reverse, List.length_reverse]; simp
      have hrl : (s1.repairs.emplace r'.id r').length = 1 := by rw [i1.rep]; rfl
      have hfin : s.onRepair gf dbg r = .ok { s1 with repairs := s1.repairs.emplace r'.id r', missing := mis } := by
        rw [hrest]
        simp only
        rw [if_neg h1']
        unfold Dec.fullDecode
        rw [if_neg (by
          simp only [Bool.or_eq_true, List.isEmpty_iff, not_or]
          exact ⟨List.ne_nil_of_length_pos (by rw [hrl]; decide), List.ne_nil_of_length_pos (by rw [hml]; omega)⟩),
          if_pos (by simp only [hrl, hml]; omega)]
        rfl
      refine ⟨⟨fun _ => ⟨hne, .inr (.inr ⟨hT, fun y hy => ?_⟩)⟩, fun _ => ⟨_, hfin⟩⟩, fun z hz => ?_⟩
      · rw [hy] at hlen; simp at hlen
      · rw [hfin] at hz; cases hz; exact .inr ⟨hlen, hrl⟩

theorem onSource_idle (gf : GF w) (dbg : Bool) (s : Dec) (src : DSource) (h : Idle s) :
    ∃ s', s.onSource gf dbg src = .ok s' ∧ Idle s' := by
  unfold Dec.onSource
  split
  · exact ⟨s, rfl, h⟩
  split
  · exact ⟨s, rfl, h⟩
  rename_i hnew
  obtain ⟨s1, h1, i1⟩ := addSource_total gf dbg s src h (by simpa using hnew)
  refine ⟨s1, ?_, i1⟩
  simp only [h1, bind, Except.bind]
  unfold Dec.fullDecode
  rw [if_pos (by rw [i1.rep]; rfl)]
  rfl

/-! ## The wrapper -/

theorem readRepair_fits {p : List Byte} {r : DRepair} {n : Nat} (h : readRepair p = .ok (r, n)) : r.symSize ≤ r.buf.length := by
  rw [readRepair_eq] at h
  obtain ⟨⟨r', c⟩, h1, h2⟩ := map_ok_inv h
  cases h2
  unfold repairReader at h1
  obtain ⟨⟨id, sz⟩, _, h3, h1⟩ := rbind_inv h1
  obtain ⟨ids, _, h4, h1⟩ := rbind_inv h1
  obtain ⟨_, _, -, h1⟩ := rbind_inv h1
  cases h1
  have := (head_inv h3).2.2
  simp only [List.length_drop, headerSize]
  omega

/-- Calls that bring no whole repair, on a decoder without repairs. -/
theorem act_idle (gf : GF w) (dbg : Bool) (clk : Clock) (d : NDec) (a : DAct) (h : Idle d.det)
    (hr : ∀ p, a = .packet p → p.head? = some 1#8 → readRepair p = .error (.cpp .overflow)) :
    (∀ d', d.act gf dbg clk a = .ok d' → Idle d'.det) ∧
      ((∀ p, a = .packet p → p ≠ []) → (∀ n, a = .setAckNb n → 0 < n) → ∃ d', d.act gf dbg clk a = .ok d') := by
  cases a with
  | packet p =>
    by_cases hp : p = []
    · refine ⟨fun d' hd => ?_, fun h1 _ => absurd hp (h1 p rfl)⟩
      simp only [NDec.act, map_ok_iff] at hd
      obtain ⟨⟨d1, x⟩, hd, rfl⟩ := hd
      rw [hp] at hd
      exact absurd hd (notify_nil _ _ _ _ _)
    have key : ∃ d', d.act gf dbg clk (.packet p) = .ok d' ∧ Idle d'.det := by
      simp only [NDec.act]
      by_cases h2 : getPacketType p = .ok .source
      · rw [NDec.notify_of_source gf dbg clk d h2]
        rcases readSource_total p with ⟨s, n, hs, _⟩ | hs
        · rw [hs]
          simp only
          obtain ⟨det', ho, hi⟩ := onSource_idle gf dbg d.det s h
          rw [ho]
          refine ⟨_, rfl, ?_⟩
          rw [(afterDet_step clk d.gotSource det' (onSource_ext ho).log).2.1]
          exact hi
        · rw [hs]; exact ⟨_, rfl, h⟩
      · by_cases h1 : getPacketType p = .ok .repair
        · rw [NDec.notify_of_repair gf dbg clk d h1, hr p rfl (head_of_type h1)]
          exact ⟨_, rfl, h⟩
        · rw [NDec.notify_of_other gf dbg clk d hp h2 h1]
          exact ⟨_, rfl, h⟩
    obtain ⟨d1, h1, i1⟩ := key
    exact ⟨fun d' hd => by rw [h1] at hd; cases hd; exact i1, fun _ _ => ⟨d1, h1⟩⟩
  | genAck => exact ⟨fun d' hd => by cases hd; exact h, fun _ _ => ⟨_, rfl⟩⟩
  | maybeAck =>
    refine ⟨fun d' hd => ?_, fun _ _ => ⟨_, rfl⟩⟩
    cases hd
    show Idle (d.maybeAckWith clk d.det.sources.keys).det
    rw [(maybeAckWith_frame clk d d.det.sources.keys).1]
    exact h
  | setAckNb n =>
    refine ⟨fun d' hd => ?_, fun _ hn => ?_⟩
    · simp only [NDec.act, NDec.setAckNb, bind_ok_iff, pure_ok_iff] at hd
      obtain ⟨_, -, rfl⟩ := hd
      exact h
    · simp only [NDec.act, NDec.setAckNb, cassert_ok _ (show decide (0 < n) = true by simpa using hn n rfl)]
      exact ⟨_, rfl⟩
  | setAckPeriod ms => exact ⟨fun d' hd => by cases hd; exact h, fun _ _ => ⟨_, rfl⟩⟩

/-- A whole repair, on a decoder without repairs. -/
theorem act_repair_idle (gf : GF w) (dbg : Bool) (clk : Clock) (d : NDec) {p : List Byte} {r : DRepair} {n : Nat} (h : Idle d.det)
    (hp : p.head? = some 1#8) (hr : readRepair p = .ok (r, n)) :
    ((∃ d', d.act gf dbg clk (.packet p) = .ok d') ↔ r.Harmless gf dbg d.det.lastId d.det.sources) ∧
      ∀ d', d.act gf dbg clk (.packet p) = .ok d' →
        Idle d'.det ∨ 2 ≤ (r.unknown d.det.sources).length ∧ d'.det.repairs.length = 1 := by
  obtain ⟨h1, h2⟩ := onRepair_idle gf dbg d.det r h (readRepair_sorted hr) (readRepair_fits hr)
  have ht : getPacketType p = .ok .repair := by rw [type_of_head hp]; rfl
  have he : d.act gf dbg clk (.packet p) = (d.det.onRepair gf dbg r).map (fun det' => d.gotRepair.afterDet clk det') := by
    simp only [NDec.act]
    rw [NDec.notify_of_repair gf dbg clk d ht, hr]
    simp only
    cases d.det.onRepair gf dbg r <;> rfl
  rw [he]
  refine ⟨⟨fun hz => ?_, fun hz => ?_⟩, fun d' hd => ?_⟩
  · obtain ⟨z, hz⟩ := hz
    obtain ⟨y, hy, -⟩ := map_ok_iff.1 hz
    exact h1.1 ⟨y, hy⟩
  · obtain ⟨y, hy⟩ := h1.2 hz
    exact ⟨_, map_ok_iff.2 ⟨y, hy, rfl⟩⟩
  · obtain ⟨y, hy, rfl⟩ := map_ok_iff.1 hd
    have e : (d.gotRepair.afterDet clk y).det = y := afterDet_det (onRepair_ext hy).log
    rw [e]
    exact h2 y hy

theorem atOnce_idle {gf : GF w} {dbg : Bool} {clk : Clock} {io : Bool} {d : NDec} (h : AtOnce gf dbg clk io d) : Idle d.det := by
  induction h with
  | init => exact idle_init io
  | other _ ha hd ih => exact (act_idle gf dbg clk _ _ ih ha).1 _ hd
  | repair _ hp hr hu hd ih =>
    rcases (act_repair_idle gf dbg clk _ ih hp hr).2 _ hd with h | h
    · exact h
    · omega

end Netcode
