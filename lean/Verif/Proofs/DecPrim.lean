import Verif.Model.Decoder
import Verif.Proofs.Encode
import Verif.Proofs.Matrix
import Verif.Proofs.OMap
import Mathlib.Algebra.BigOperators.Group.List.Lemmas
import Mathlib.Algebra.Module.BigOperators
import Mathlib.Algebra.Module.Pi

/-!
# Decoding primitives on genuine repairs
-/

set_option linter.unusedSectionVars false

namespace Netcode

variable {w : Nat}

theorem coefficient_ne_zero (hv : ValidW w) (r s : Nat) : coefficient w r s ≠ 0#w := by
  intro h
  have h1 := congrArg BitVec.toNat h
  simp only [coefficient, BitVec.toNat_ofNat, Nat.zero_mod] at h1
  unfold coefficientNat at h1
  simp only at h1
  rcases hv with rfl | rfl | rfl | rfl
  · rw [if_neg (by decide)] at h1; omega
  · rw [if_neg (by decide)] at h1; omega
  · rw [if_neg (by decide)] at h1; omega
  · rw [if_pos rfl] at h1
    split at h1
    · omega
    · omega

variable [Fact (0 < w)]

/-- A genuine repair from which some sources have been removed: the equation it stands for.
`data` gives the data of each source. -/
structure RepOk (gf : GF w) (data : Nat → List Byte) (r : DRepair) : Prop where
  sorted : Sorted r.ids
  symBuf : r.symSize ≤ r.buf.length
  align : 8 * r.symSize % w = 0
  dataOk : ∀ x ∈ r.ids, DataOk w (data x)
  len : ∀ x ∈ r.ids, (data x).length ≤ r.symSize
  fits : ∀ x ∈ r.ids, SizeFits gf (coefficient w r.id x) (BitVec.ofNat 16 (data x).length)
  vec : vec gf (r.buf.take r.symSize)
    = (r.ids.map fun x => toFE gf (coefficient w r.id x) • vec gf (data x)).sum
  enc : szVec gf r.encSize
    = (r.ids.map fun x => toFE gf (coefficient w r.id x) • szVec gf (BitVec.ofNat 16 (data x).length)).sum

theorem add_self_vec (gf : GF w) (v : Nat → FE gf) : v + v = 0 := by
  funext j; exact FE.add_self _

theorem inv_smul_smul (gf : GF w) (hv : ValidW w) (r s : Nat) (v : Nat → FE gf) :
    toFE gf (gfInvert gf (coefficient w r s)) • (toFE gf (coefficient w r s) • v) = v := by
  have h := coefficient_ne_zero hv r s
  unfold gfInvert
  rw [toFE_inv gf h]
  funext j
  simp only [Pi.smul_apply, smul_eq_mul]
  rw [← mul_assoc, inv_mul_cancel₀, one_mul]
  exact h

/-- Sizes below 2^16 are exactly recovered. -/
theorem ofNat16_toNat {n : Nat} (h : n < 2 ^ 16) : (BitVec.ofNat 16 n).toNat = n := by
  rw [BitVec.toNat_ofNat, Nat.mod_eq_of_lt h]

theorem createSource_ok (gf : GF w) (hv : ValidW w) (dbg : Bool) (data : Nat → List Byte) (r : DRepair)
    (h : RepOk gf data r) (x : Nat) (hx : r.ids = [x]) :
    createSource gf dbg r = .ok { id := x, sym := data x } := by
  have hd := h.dataOk x (by simp [hx])
  have hl := h.len x (by simp [hx])
  have hvec := h.vec
  have henc := h.enc
  have hsb := h.symBuf
  simp only [hx, List.map_cons, List.map_nil, List.sum_cons, List.sum_nil, add_zero] at hvec henc
  have hsz : mulSize gf r.encSize (gfInvert gf (coefficient w r.id x)) = BitVec.ofNat 16 (data x).length := by
    have h1 := mulSize_trunc gf hv r.encSize (gfInvert gf (coefficient w r.id x))
    rw [henc, inv_smul_smul gf hv] at h1
    exact isTrunc_unique h1 (isTrunc_szVec gf _)
  obtain ⟨q, e1, l1, v1⟩ := gfMultiply_ok gf r.buf (data x).length (gfInvert gf (coefficient w r.id x)) (by omega) hd.2.2
  have hq : q = data x := by
    apply vec_inj gf Fact.out l1
    rw [v1]
    funext j
    by_cases hj : j < 8 * (data x).length / w
    · have h1 : vec gf (r.buf.take (data x).length) j = vec gf (r.buf.take r.symSize) j := by
        rw [vec_take gf _ _ hd.2.2, if_pos hj, vec_take gf _ _ h.align, if_pos]
        exact Nat.lt_of_lt_of_le hj (Nat.div_le_div_right (by omega))
      have h2 := congrFun (inv_smul_smul gf hv r.id x (vec gf (data x))) j
      rw [Pi.smul_apply, h1, hvec, ← Pi.smul_apply, h2]
    · have h1 : vec gf (r.buf.take (data x).length) j = 0 := by
        rw [vec_take gf _ _ hd.2.2, if_neg hj]
      rw [Pi.smul_apply, h1, smul_zero, vec_zero_of_len gf (data x) (data x).length j hd.2.2 (le_refl _) (by omega)]
  unfold createSource
  rw [cassert_true _ (by simp [hx])]
  simp only [hx, hsz, ofNat16_toNat hd.2.1, e1, hq]
  rfl

theorem sum_erase {M : Type} [AddCommMonoid M] (l : List Nat) (x : Nat) (hx : x ∈ l) (f : Nat → M) :
    (l.map f).sum = f x + ((l.erase x).map f).sum := by
  have := (List.perm_cons_erase hx).map f
  rw [this.sum_eq]; simp

/-- Removing a source from a repair. -/
theorem removeData_ok (gf : GF w) (hv : ValidW w) (dbg : Bool) (data : Nat → List Byte) (r : DRepair)
    (h : RepOk gf data r) (x : Nat) (hx : x ∈ r.ids) (h2 : 1 < r.ids.length) :
    ∃ r', removeData gf dbg { id := x, sym := data x } r = .ok r' ∧
      r' = { r with encSize := r'.encSize, buf := r'.buf } ∧ RepOk gf data { r' with ids := r.ids.erase x } := by
  have hd := h.dataOk x hx
  have hl := h.len x hx
  have hsb := h.symBuf
  obtain ⟨q, e1, l1, v1⟩ := gfMultiplyAdd_ok gf (data x) r.buf (data x).length (coefficient w r.id x) (le_refl _)
    (by omega) hd.2.2
  have he : removeData gf dbg { id := x, sym := data x } r = .ok
      { r with encSize := mulSize gf (BitVec.ofNat 16 (data x).length) (coefficient w r.id x) ^^^ r.encSize, buf := q } := by
    unfold removeData
    rw [cassert_true _ (by simpa using h2), cassert_true _ (by simpa using hl)]
    simp only [e1]; rfl
  refine ⟨_, he, rfl, ?_⟩
  have hmem : ∀ y, y ∈ r.ids.erase x → y ∈ r.ids := fun y hy => List.mem_of_mem_erase hy
  constructor
  · exact sorted_erase' h.sorted x
  · simp only; omega
  · exact h.align
  · exact fun y hy => h.dataOk y (hmem y hy)
  · exact fun y hy => h.len y (hmem y hy)
  · exact fun y hy => h.fits y (hmem y hy)
  · simp only
    have hs := h.vec
    rw [sum_erase r.ids x hx] at hs
    have hz : vec gf (q.take r.symSize) = vec gf (r.buf.take r.symSize) + toFE gf (coefficient w r.id x) • vec gf (data x) := by
      funext j
      rw [Pi.add_apply, Pi.smul_apply, vec_take gf _ _ h.align, vec_take gf _ _ h.align]
      split
      · rw [v1, Pi.add_apply, Pi.smul_apply, List.take_length]
      · rw [vec_zero_of_len gf (data x) r.symSize j h.align hl (by omega)]; simp
    rw [hz, hs, add_comm, ← add_assoc, add_self_vec, zero_add]
  · simp only
    have hs := h.enc
    rw [sum_erase r.ids x hx] at hs
    rw [szVec_xor, szVec_mulSize gf hv _ _ (h.fits x hx), hs, ← add_assoc, add_self_vec, zero_add]

/-! ## Full decoding -/

theorem decodeSize_fold (gf : GF w) (hv : ValidW w) (inv : Mat w) (col : Nat) (reps : List DRepair) (start : Nat)
    (acc : BitVec 16) (v : Nat → FE gf) (h : IsTrunc gf acc v) :
    IsTrunc gf ((reps.zipIdx start).foldl
      (fun res (r, row) => if inv col row ≠ 0#w then mulSize gf r.encSize (inv col row) ^^^ res else res) acc)
      (v + ((reps.zipIdx start).map (fun p => ent gf inv col p.2 • szVec gf p.1.encSize)).sum) := by
  induction reps generalizing start acc v with
  | nil => simpa using h
  | cons r t ih =>
    simp only [List.zipIdx_cons, List.foldl_cons, List.map_cons, List.sum_cons]
    rw [← add_assoc]
    apply ih
    split
    · rw [add_comm]
      exact isTrunc_xor (mulSize_trunc gf hv _ _) h
    · rename_i h0
      have : ent gf inv col start = 0 := by
        rw [ent_zero_iff]; exact not_not.1 h0
      rw [this, zero_smul, add_zero]; exact h

theorem decodeSym_ok (gf : GF w) (inv : Mat w) (col sz : Nat) (hsz : 8 * sz % w = 0)
    (l : List (DRepair × Nat)) (hl : ∀ p ∈ l, p.1.symSize ≤ p.1.buf.length ∧ 8 * p.1.symSize % w = 0)
    (first : Bool) (sym : List Byte) (hlen : sym.length = sz) (hf : first = true → sym = List.replicate sz 0#8) :
    ∃ q, decodeSym gf inv col sz l first sym = .ok q ∧ q.length = sz ∧
      ∀ j, j < 8 * sz / w → vec gf q j = vec gf sym j +
        ((l.map (fun p => ent gf inv col p.2 • vec gf (p.1.buf.take p.1.symSize))).sum) j := by
  induction l generalizing first sym with
  | nil => exact ⟨sym, rfl, hlen, fun j _ => by simp⟩
  | cons p t ih =>
    obtain ⟨r, row⟩ := p
    have hr := hl (r, row) (by simp)
    have ht : ∀ p ∈ t, p.1.symSize ≤ p.1.buf.length ∧ 8 * p.1.symSize % w = 0 := fun p hp => hl p (by simp [hp])
    simp only at hr
    unfold decodeSym
    by_cases h0 : inv col row = 0#w
    · rw [if_pos h0]
      obtain ⟨q, e, l1, v1⟩ := ih ht first sym hlen hf
      refine ⟨q, e, l1, fun j hj => ?_⟩
      have hz : ent gf inv col row = 0 := (ent_zero_iff gf).2 h0
      rw [v1 j hj, List.map_cons, List.sum_cons, hz, zero_smul, zero_add]
    · rw [if_neg h0]
      have hmin : 8 * min sz r.symSize % w = 0 := by
        rcases Nat.le_total sz r.symSize with h | h
        · rw [Nat.min_eq_left h]; exact hsz
        · rw [Nat.min_eq_right h]; exact hr.2
      have hterm : ∀ j, j < 8 * sz / w → vec gf (r.buf.take (min sz r.symSize)) j = vec gf (r.buf.take r.symSize) j := by
        intro j hj
        rw [vec_take gf _ _ hmin, vec_take gf _ _ hr.2]
        rcases Nat.le_total sz r.symSize with h | h
        · rw [Nat.min_eq_left h, if_pos hj, if_pos]
          exact Nat.lt_of_lt_of_le hj (Nat.div_le_div_right (by omega))
        · rw [Nat.min_eq_right h]
      cases first with
      | true =>
        obtain ⟨q1, e1, l1, v1⟩ := gfMultiply_ok gf r.buf (min sz r.symSize) (inv col row) (by omega) hmin
        have hz := hf rfl
        have e3 : q1 ++ sym.drop (min sz r.symSize) = q1 ++ List.replicate (sz - min sz r.symSize) 0#8 := by
          rw [hz]; simp
        obtain ⟨q, e, l2, v2⟩ := ih ht false (q1 ++ sym.drop (min sz r.symSize)) (by
          rw [List.length_append, l1, List.length_drop, hlen]; omega) (by simp)
        refine ⟨q, ?_, l2, fun j hj => ?_⟩
        · simp only [e1, if_true]; exact e
        · rw [v2 j hj, e3, vec_append_zeros, v1, List.map_cons, List.sum_cons, Pi.add_apply, Pi.smul_apply, hterm j hj]
          have : vec gf sym j = 0 := by
            rw [hz]
            have := vec_append_zeros gf [] sz
            rw [List.nil_append] at this
            rw [this, vec_nil]; rfl
          rw [this, zero_add]; rfl
      | false =>
        obtain ⟨q1, e1, l1, v1⟩ := gfMultiplyAdd_ok gf r.buf sym (min sz r.symSize) (inv col row) (by omega) (by omega) hmin
        obtain ⟨q, e, l2, v2⟩ := ih ht false q1 (by omega) (by simp)
        refine ⟨q, ?_, l2, fun j hj => ?_⟩
        · simp only [e1]; exact e
        · rw [v2 j hj, v1, List.map_cons, List.sum_cons, Pi.add_apply, Pi.add_apply, Pi.smul_apply, hterm j hj, add_assoc]; rfl

theorem sum_zipIdx {α M : Type} [AddCommMonoid M] (l : List α) (d : α) (k : Nat) (f : α × Nat → M) :
    ((l.zipIdx k).map f).sum = ∑ i ∈ Finset.range l.length, f (l.getD i d, k + i) := by
  induction l generalizing k with
  | nil => simp
  | cons a t ih =>
    rw [List.zipIdx_cons, List.map_cons, List.sum_cons, ih, List.length_cons, Finset.sum_range_succ']
    simp only [List.getD_cons_zero, List.getD_cons_succ, Nat.add_zero]
    rw [add_comm]
    congr 1
    apply Finset.sum_congr rfl
    intro i _
    congr 2; omega

theorem sum_getD {M : Type} [AddCommMonoid M] (l : List Nat) (g : Nat → M) :
    ∑ i ∈ Finset.range l.length, g (l.getD i 0) = (l.map g).sum := by
  induction l with
  | nil => simp
  | cons a t ih =>
    rw [List.length_cons, Finset.sum_range_succ', List.map_cons, List.sum_cons, ← ih, add_comm]
    simp

theorem sum_ite_mem {M : Type} [AddCommMonoid M] (l ids : List Nat) (hl : Sorted l) (hi : Sorted ids)
    (hsub : ∀ x ∈ ids, x ∈ l) (g : Nat → M) :
    (l.map (fun x => if x ∈ ids then g x else 0)).sum = (ids.map g).sum := by
  have h1 : l.filter (fun x => decide (x ∈ ids)) = ids := by
    apply sorted_ext (hl.filter _) hi
    intro x
    rw [List.mem_filter]
    simp only [decide_eq_true_eq]
    exact ⟨fun h => h.2, fun h => ⟨hsub x h, h⟩⟩
  conv => rhs; rw [← h1]
  clear h1 hsub hl
  induction l with
  | nil => simp
  | cons a t ih =>
    rw [List.map_cons, List.sum_cons, ih, List.filter_cons]
    by_cases h : a ∈ ids <;> simp [h]

/-- Solving the linear system: row `a` of the inverse recombines the repairs into source `a`. -/
theorem solve (gf : GF w) (repairs : OMap DRepair) (missing : OMap (List Nat)) (inv : Mat w) (n : Nat)
    (hn1 : repairs.length = n) (hn2 : missing.length = n) (hsort : missing.SortedKeys)
    (hinv : invert gf n (coeffMatrix w repairs missing) = .ok inv)
    (V : Nat → Nat → FE gf) (val : DRepair → Nat → FE gf)
    (hval : ∀ q ∈ repairs, val q.2 = (q.2.ids.map fun x => toFE gf (coefficient w q.1 x) • V x).sum)
    (hids : ∀ q ∈ repairs, Sorted q.2.ids ∧ ∀ x ∈ q.2.ids, x ∈ missing.map (·.1))
    (a : Nat) (ha : a < n) (x : Nat) (hx : (missing.map (·.1))[a]? = some x) :
    (((repairs.map (·.2)).zipIdx).map (fun p => ent gf inv a p.2 • val p.1)).sum = V x := by
  have hd : repairs ≠ [] := by intro h; subst h; simp at hn1; omega
  obtain ⟨q0, hq0⟩ := List.exists_mem_of_ne_nil repairs hd
  rw [sum_zipIdx _ q0.2]
  have hrow : ∀ row ∈ Finset.range n, val ((repairs.map (·.2)).getD row q0.2)
      = ∑ b ∈ Finset.range n, ent gf (coeffMatrix w repairs missing) row b • V ((missing.map (·.1)).getD b 0) := by
    intro row hr
    rw [Finset.mem_range] at hr
    have hr' : row < repairs.length := by omega
    have hmem : repairs[row] ∈ repairs := List.getElem_mem hr'
    have e1 : (repairs.map (·.2)).getD row q0.2 = (repairs[row]).2 := by
      rw [List.getD_eq_getElem?_getD, List.getElem?_map, List.getElem?_eq_getElem hr']; rfl
    rw [e1, hval _ hmem]
    rw [← sum_ite_mem (missing.map Prod.fst) (repairs[row]).2.ids hsort (hids _ hmem).1 (hids _ hmem).2, ← sum_getD]
    rw [List.length_map, hn2]
    apply Finset.sum_congr rfl
    intro b hb
    rw [Finset.mem_range] at hb
    have hb' : b < missing.length := by omega
    have e2 : (missing.map (·.1)).getD b 0 = (missing[b]).1 := by
      rw [List.getD_eq_getElem?_getD, List.getElem?_map, List.getElem?_eq_getElem hb']; rfl
    have e3 : coeffMatrix w repairs missing row b
        = if (missing[b]).1 ∈ (repairs[row]).2.ids then coefficient w (repairs[row]).1 (missing[b]).1 else 0#w := by
      unfold coeffMatrix
      rw [List.getElem?_eq_getElem hr', List.getElem?_eq_getElem hb']
    rw [e2]
    unfold ent
    rw [e3]
    split
    · rfl
    · rw [toFE_zero, zero_smul]
  rw [List.length_map, hn1]
  have h1 : ∑ i ∈ Finset.range n, ent gf inv a (0 + i) • val ((repairs.map (·.2)).getD i q0.2)
      = ∑ i ∈ Finset.range n, ∑ b ∈ Finset.range n,
          (ent gf inv a i * ent gf (coeffMatrix w repairs missing) i b) • V ((missing.map (·.1)).getD b 0) := by
    apply Finset.sum_congr rfl
    intro i hi
    rw [hrow i hi, Finset.smul_sum, Nat.zero_add]
    apply Finset.sum_congr rfl
    intro b _
    rw [smul_smul]
  show ∑ i ∈ Finset.range n, ent gf inv a (0 + i) • val ((repairs.map (·.2)).getD i q0.2) = V x
  rw [h1, Finset.sum_comm]
  have h2 : ∀ b ∈ Finset.range n, ∑ i ∈ Finset.range n,
      (ent gf inv a i * ent gf (coeffMatrix w repairs missing) i b) • V ((missing.map (·.1)).getD b 0)
      = if a = b then V ((missing.map (·.1)).getD b 0) else 0 := by
    intro b hb
    rw [← Finset.sum_smul, invert_ok_spec hinv a b ha (Finset.mem_range.1 hb)]
    split
    · rw [one_smul]
    · rw [zero_smul]
  rw [Finset.sum_congr rfl h2, Finset.sum_ite_eq, if_pos (Finset.mem_range.2 ha)]
  rw [List.getD_eq_getElem?_getD, hx]; rfl

/-- Some coefficient of each row of the inverse is not null. -/
theorem inverse_row_ne_zero (gf : GF w) (n : Nat) (M inv : Mat w) (hinv : invert gf n M = .ok inv) (a : Nat)
    (ha : a < n) : (List.range n).any (fun row => inv a row != 0#w) = true := by
  by_contra h
  simp only [List.any_eq_true, List.mem_range, not_exists, not_and, bne_iff_ne, ne_eq, not_not] at h
  have h1 := invert_ok_spec hinv a a ha ha
  rw [if_pos rfl] at h1
  have h2 : ∑ k ∈ Finset.range n, ent gf inv a k * ent gf M k a = 0 := by
    apply Finset.sum_eq_zero
    intro k hk
    rw [(ent_zero_iff gf).2 (h k (Finset.mem_range.1 hk)), zero_mul]
  rw [h2] at h1
  exact zero_ne_one h1

/-- Full decoding recovers the size and the symbol of each missing source. -/
theorem decode_ok (gf : GF w) (hv : ValidW w) (data : Nat → List Byte) (repairs : OMap DRepair)
    (missing : OMap (List Nat)) (inv : Mat w) (n : Nat)
    (hn1 : repairs.length = n) (hn2 : missing.length = n) (hsort : missing.SortedKeys)
    (hinv : invert gf n (coeffMatrix w repairs missing) = .ok inv)
    (hrep : ∀ q ∈ repairs, q.2.id = q.1 ∧ RepOk gf data q.2 ∧ ∀ x ∈ q.2.ids, x ∈ missing.map (·.1))
    (a : Nat) (ha : a < n) (x : Nat) (hx : (missing.map (·.1))[a]? = some x) (hd : DataOk w (data x)) :
    (decodeSize gf inv a (repairs.map (·.2))).toNat = (data x).length ∧
    decodeSym gf inv a (data x).length (repairs.map (·.2)).zipIdx true (List.replicate (data x).length 0#8)
      = .ok (data x) := by
  have hids : ∀ q ∈ repairs, Sorted q.2.ids ∧ ∀ x ∈ q.2.ids, x ∈ missing.map (·.1) :=
    fun q hq => ⟨(hrep q hq).2.1.sorted, (hrep q hq).2.2⟩
  constructor
  · have h1 := solve gf repairs missing inv n hn1 hn2 hsort hinv
      (fun x => szVec gf (BitVec.ofNat 16 (data x).length)) (fun r => szVec gf r.encSize)
      (fun q hq => by
        have h := (hrep q hq).2.1.enc
        rw [(hrep q hq).1] at h; exact h) hids a ha x hx
    have h2 := decodeSize_fold gf hv inv a (repairs.map (·.2)) 0 0 0 isTrunc_zero
    rw [zero_add, h1] at h2
    have : decodeSize gf inv a (repairs.map (·.2)) = BitVec.ofNat 16 (data x).length :=
      isTrunc_unique h2 (isTrunc_szVec gf _)
    rw [this, ofNat16_toNat hd.2.1]
  · have h1 := solve gf repairs missing inv n hn1 hn2 hsort hinv
      (fun x => vec gf (data x)) (fun r => vec gf (r.buf.take r.symSize))
      (fun q hq => by
        have h := (hrep q hq).2.1.vec
        rw [(hrep q hq).1] at h; exact h) hids a ha x hx
    obtain ⟨q, e, l, v⟩ := decodeSym_ok gf inv a (data x).length hd.2.2 (repairs.map (·.2)).zipIdx (by
      intro p hp
      have : p.1 ∈ repairs.map (·.2) := List.fst_mem_of_mem_zipIdx hp
      obtain ⟨q, hq, hq2⟩ := List.mem_map.1 this
      rw [← hq2]
      exact ⟨(hrep q hq).2.1.symBuf, (hrep q hq).2.1.align⟩) true (List.replicate (data x).length 0#8) (by simp)
      (fun _ => rfl)
    rw [e]
    congr 1
    apply vec_inj gf Fact.out l
    funext j
    by_cases hj : j < 8 * (data x).length / w
    · rw [v j hj, h1]
      have := vec_append_zeros gf [] (data x).length
      rw [List.nil_append] at this
      rw [this, vec_nil]; simp
    · rw [vec_zero_of_len gf q (data x).length j hd.2.2 (by omega) (by omega),
        vec_zero_of_len gf (data x) (data x).length j hd.2.2 (le_refl _) (by omega)]

end Netcode
