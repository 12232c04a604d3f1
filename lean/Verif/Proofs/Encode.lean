import Verif.Model.Encoder
import Verif.Proofs.Region
import Verif.Proofs.Wire
import Mathlib.Algebra.BigOperators.Group.List.Basic

/-!
# What a repair contains
-/

namespace Netcode

variable {w : Nat}

/-! ## The out monad -/

theorem ensure_true {c : Bool} (k : UB) (h : c = true) : ensure c k = .ok () := by simp [ensure, h]
theorem cassert_true {c : Bool} (dbg : Bool) (h : c = true) : cassert dbg c = .ok () := by simp [cassert, h]

/-! ## Regions -/

variable [Fact (0 < w)]

theorem gfMultiply_ok (gf : GF w) (src : List Byte) (len : Nat) (c : BitVec w) (h1 : len ≤ src.length)
    (h2 : 8 * len % w = 0) :
    ∃ r, gfMultiply gf src len c = .ok r ∧ r.length = len ∧ vec gf r = toFE gf c • vec gf (src.take len) := by
  refine ⟨mulRegion gf c (src.take len), ?_, ?_, ?_⟩
  · unfold gfMultiply
    rw [ensure_true _ (by simpa using h1), ensure_true _ (by simpa using h2)]; rfl
  · rw [mulRegion_length, List.length_take]; omega
  · apply vec_mulRegion
    rw [List.length_take, Nat.min_eq_left h1]; exact h2

theorem gfMultiplyAdd_ok (gf : GF w) (src dst : List Byte) (len : Nat) (c : BitVec w) (h1 : len ≤ src.length)
    (h3 : len ≤ dst.length) (h2 : 8 * len % w = 0) :
    ∃ r, gfMultiplyAdd gf src dst len c = .ok r ∧ r.length = dst.length ∧
      vec gf r = vec gf dst + toFE gf c • vec gf (src.take len) := by
  have hl : (mulRegion gf c (src.take len)).length ≤ dst.length := by
    rw [mulRegion_length, List.length_take]; omega
  refine ⟨xorPrefix dst (mulRegion gf c (src.take len)), ?_, xorPrefix_length _ _, ?_⟩
  · unfold gfMultiplyAdd
    rw [ensure_true _ (by simpa using h1), ensure_true _ (by simpa using h3), ensure_true _ (by simpa using h2)]; rfl
  · rw [vec_xorPrefix gf _ _ hl, vec_mulRegion]
    rw [List.length_take, Nat.min_eq_left h1]; exact h2

/-! ## encodeRepair -/

/-- `r` is the repair `id` of the sources `P`. -/
structure EncOk (gf : GF w) (rid : Nat) (P : List ESource) (r : ERepair) : Prop where
  ids : r.ids = P.map (·.id)
  id : r.id = rid
  len : ∀ s ∈ P, s.sym.length ≤ r.sym.length
  lenEx : ∃ s ∈ P, r.sym.length = s.sym.length
  vec : vec gf r.sym = (P.map fun s => toFE gf (coefficient w rid s.id) • vec gf s.sym).sum
  enc : IsTrunc gf r.encSize
    ((P.map fun s => toFE gf (coefficient w rid s.id) • szVec gf (BitVec.ofNat 16 s.sym.length)).sum)

omit [Fact (0 < w)] in
theorem size_eq {s : ESource} (h : DataOk w s.sym) : s.size = s.sym.length := Nat.mod_eq_of_lt h.2.1

theorem encodeStep_ok (gf : GF w) (hv : ValidW w) (id : Nat) (P : List ESource) (r : ERepair) (s : ESource)
    (h : EncOk gf id P r) (hP : ∀ x ∈ P, DataOk w x.sym) (hs : DataOk w s.sym) (hid : ∀ x ∈ P, x.id < s.id) :
    ∃ r', encodeStep gf r s = .ok r' ∧ EncOk gf id (P ++ [s]) r' := by
  have hsz : s.size = s.sym.length := size_eq hs
  unfold encodeStep
  generalize hsym : (if s.size > r.sym.length then r.sym ++ List.replicate (s.size - r.sym.length) 0#8 else r.sym) = sym
  have hv1 : Netcode.vec gf sym = Netcode.vec gf r.sym := by
    rw [← hsym]; split
    · exact vec_append_zeros _ _ _
    · rfl
  have hl1 : sym.length = max r.sym.length s.sym.length := by
    rw [← hsym, hsz]; split
    · rw [List.length_append, List.length_replicate]; omega
    · omega
  obtain ⟨r1, e1, l1, v1⟩ := gfMultiplyAdd_ok gf s.sym sym s.size (coefficient w r.id s.id) (by omega) (by omega)
    (by rw [hsz]; exact hs.2.2)
  simp only [e1]
  refine ⟨_, rfl, ?_⟩
  constructor
  · simp only
    rw [h.ids, setInsert_append]
    · simp
    · intro x hx
      obtain ⟨y, hy, rfl⟩ := List.mem_map.1 hx
      exact hid y hy
  · exact h.id
  · intro x hx
    simp only
    rw [l1, hl1]
    rcases List.mem_append.1 hx with hx | hx
    · have := h.len x hx; omega
    · simp only [List.mem_singleton] at hx; subst hx; omega
  · simp only
    rw [l1, hl1]
    obtain ⟨y, hy, hy2⟩ := h.lenEx
    rcases Nat.le_total r.sym.length s.sym.length with hh | hh
    · exact ⟨s, by simp, by omega⟩
    · exact ⟨y, by simp [hy], by omega⟩
  · simp only
    rw [v1, hv1, h.vec, h.id, hsz, List.take_length, List.map_append, List.sum_append]; simp
  · simp only
    rw [List.map_append, List.sum_append]
    have e2 := mulSize_trunc gf hv (BitVec.ofNat 16 s.size) (coefficient w r.id s.id)
    rw [hsz, h.id] at e2
    have e3 := isTrunc_xor e2 h.enc
    rw [hsz, h.id]
    simp only [List.map_cons, List.map_nil, List.sum_cons, List.sum_nil, add_zero]
    rw [add_comm]; exact e3

theorem encodeFold_ok (gf : GF w) (hv : ValidW w) (id : Nat) (T P : List ESource) (r : ERepair)
    (h : EncOk gf id P r) (hP : ∀ x ∈ P ++ T, DataOk w x.sym) (hs : Sorted ((P ++ T).map (·.id))) :
    ∃ r', T.foldlM (encodeStep gf) r = .ok r' ∧ EncOk gf id (P ++ T) r' := by
  induction T generalizing P r with
  | nil => exact ⟨r, rfl, by simpa using h⟩
  | cons s T ih =>
    rw [List.map_append, Sorted, List.pairwise_append] at hs
    obtain ⟨r1, e1, h1⟩ := encodeStep_ok gf hv id P r s h (fun x hx => hP x (by simp [hx])) (hP s (by simp))
      (fun x hx => hs.2.2 x.id (List.mem_map_of_mem hx) s.id (by simp))
    obtain ⟨r2, e2, h2⟩ := ih (P ++ [s]) r1 h1 (by simpa using hP) (by
      rw [List.append_assoc, List.singleton_append, List.map_append, Sorted, List.pairwise_append]; exact hs)
    refine ⟨r2, ?_, by simpa using h2⟩
    rw [List.foldlM_cons, e1]; exact e2

theorem encodeRepair_ok (gf : GF w) (hv : ValidW w) (dbg : Bool) (id : Nat) (T : List ESource) (hne : T ≠ [])
    (hP : ∀ x ∈ T, DataOk w x.sym) (hs : Sorted (T.map (·.id))) :
    ∃ r, encodeRepair gf dbg id T = .ok r ∧ EncOk gf id T r := by
  cases T with
  | nil => exact absurd rfl hne
  | cons s T =>
    have hd := hP s (by simp)
    have hsz : s.size = s.sym.length := size_eq hd
    obtain ⟨r1, e1, l1, v1⟩ := gfMultiply_ok gf s.sym s.size (coefficient w id s.id) (by omega)
      (by rw [hsz]; exact hd.2.2)
    simp only [encodeRepair, e1]
    have h0 : EncOk gf id [s] { id := id, ids := [s.id], sym := r1, encSize := mulSize gf (BitVec.ofNat 16 s.size) (coefficient w id s.id) } := by
      constructor
      · rfl
      · rfl
      · intro x hx; simp only [List.mem_singleton] at hx; subst hx; simp only; omega
      · exact ⟨s, by simp, by simp only; omega⟩
      · simp only
        rw [v1, hsz, List.take_length]; simp
      · have e2 := mulSize_trunc gf hv (BitVec.ofNat 16 s.size) (coefficient w id s.id)
        rw [hsz] at e2 ⊢
        simpa using e2
    have := encodeFold_ok gf hv id T [s] _ h0 (by simpa using hP) (by simpa using hs)
    exact this

theorem EncOk.symLen {gf : GF w} {id : Nat} {T : List ESource} {r : ERepair} (h : EncOk gf id T r)
    (hP : ∀ x ∈ T, DataOk w x.sym) : 0 < r.sym.length ∧ r.sym.length < 2 ^ 16 ∧ 8 * r.sym.length % w = 0 := by
  obtain ⟨s, hs, e⟩ := h.lenEx
  rw [e]; exact hP s hs

end Netcode
