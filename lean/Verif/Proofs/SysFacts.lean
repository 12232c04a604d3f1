import Verif.Proofs.SysStep
import Verif.Spec.Observe
import Mathlib.Data.List.Sort

/-!
# Consequences of the system invariant
-/

set_option linter.unusedSectionVars false

namespace Netcode

open OMap

variable {w : Nat} [Fact (0 < w)]
variable {c : Cfg w} {io : Bool} {data : Nat → List Byte} {ems : List Em} {A : Set Nat} {ρ L : Nat}
  {W K : Set Nat} {s : Sys}

/-- The data committed, by identifier. -/
def comData (s : Sys) (x : Nat) : List Byte := s.committed.getD x []

theorem comData_agree (s : Sys) : Agree (comData s) s.committed := by
  intro x d h
  unfold comData
  rw [List.getD_eq_getElem?_getD, h]; rfl

theorem comData_map (s : Sys) : (List.range s.committed.length).map (comData s) = s.committed := by
  apply List.ext_getElem?
  intro i
  rw [List.getElem?_map]
  by_cases hi : i < s.committed.length
  · simp [hi, comData]
  · simp [hi]

omit [Fact (0 < w)] in
theorem fact_of_valid (h : ValidW w) : Fact (0 < w) := by
  constructor
  unfold ValidW at h
  omega

theorem SysInv.dec_data (h : SysInv c io data ems A ρ L W K s) : s.dec.data = s.dec.det.handed.map data := by
  rw [h.dataLog]
  unfold Dec.handed
  rw [List.map_map]
  apply List.map_congr_left
  intro ev hev
  exact h.dinv.log.logData ev hev

theorem SysInv.handed_nodup (h : SysInv c io data ems A ρ L W K s) : s.dec.det.handed.Nodup := by
  cases hio : s.dec.det.inOrder with
  | false => exact (h.dinv.log.unord hio).1
  | true => exact (h.dinv.log.ord hio).1.logSorted.imp (fun h => Nat.ne_of_lt h)

theorem SysInv.handed_known (h : SysInv c io data ems A ρ L W K s) {x : Nat} (hx : x ∈ s.dec.det.handed) : x ∈ K := by
  cases hio : s.dec.det.inOrder with
  | false => exact ((h.dinv.log.unord hio).2.1 x).1 hx
  | true => exact (((h.dinv.log.ord hio).1.logMem x).1 hx).1

theorem SysInv.handed_lt (h : SysInv c io data ems A ρ L W K s) {x : Nat} (hx : x ∈ s.dec.det.handed) :
    x < s.committed.length := h.knownLt x (h.handed_known hx)

theorem SysInv.knows_iff (h : SysInv c io data ems A ρ L W K s) (x : Nat) : s.dec.det.Knows x ↔ x ∈ K := by
  constructor
  · rintro (hx | hx)
    · exact h.handed_known hx
    · exact h.dinv.core.src_keys x hx
  · intro hx
    cases hio : s.dec.det.inOrder with
    | false => exact Or.inl (((h.dinv.log.unord hio).2.1 x).2 hx)
    | true =>
      have ho := (h.dinv.log.ord hio).1
      by_cases hf : x < s.dec.det.firstMissing
      · exact Or.inl ((ho.logMem x).2 ⟨hx, hf⟩)
      · refine Or.inr ?_
        have := ho.lo
        exact (has_iff _ _).1 ((h.dinv.core.has_src x).2 ⟨hx, by omega⟩)

theorem SysInv.hasData (h : SysInv c io data ems A ρ L W K s) {x : Nat} (hx : x ∈ K) : s.dec.det.HasData x (data x) := by
  rcases (h.knows_iff x).2 hx with hk | hk
  · obtain ⟨ev, hev, rfl⟩ := List.mem_map.1 hk
    exact Or.inl ⟨ev, hev, rfl, h.dinv.log.logData ev hev⟩
  · have := (h.dinv.core.has_src x).1 ((has_iff _ _).2 hk)
    exact Or.inr (h.dinv.core.get_src this.1 this.2)

theorem SysInv.subperm (h : SysInv c io data ems A ρ L W K s) (hd : data = comData s) :
    s.dec.data.Subperm s.committed := by
  rw [h.dec_data, hd]
  conv_rhs => rw [← comData_map s]
  obtain ⟨l, h1, h2⟩ :=
    List.subperm_of_subset h.handed_nodup (fun x hx => List.mem_range.2 (h.handed_lt hx))
  exact ⟨l.map _, h1.map _, h2.map _⟩

theorem sublist_range {l : List Nat} {n : Nat} (hs : Sorted l) (hl : ∀ x ∈ l, x < n) : List.Sublist l (List.range n) := by
  apply List.sublist_of_subperm_of_pairwise (r := (· < ·))
  · exact List.subperm_of_subset (hs.imp (fun h => Nat.ne_of_lt h)) (fun x hx => List.mem_range.2 (hl x hx))
  · exact hs
  · exact List.pairwise_lt_range

theorem SysInv.sublist (h : SysInv c true data ems A ρ L W K s) (hd : data = comData s) :
    s.dec.data.Sublist s.committed := by
  rw [h.dec_data, hd]
  conv_rhs => rw [← comData_map s]
  apply List.Sublist.map
  exact sublist_range (h.dinv.log.ord h.io).1.logSorted (fun x hx => h.handed_lt hx)

theorem smallGaps_of_lt {l : List Nat} {n : Nat} (hl : ∀ x ∈ l, x < n) (hn : n < 2 ^ 16) : SmallGaps l := by
  match l with
  | [] => trivial
  | [_] => trivial
  | a :: b :: t =>
    refine ⟨?_, smallGaps_of_lt (n := n) (fun x hx => hl x (by simp [hx])) hn⟩
    have := hl b (by simp); omega

theorem nbRuns_lt (l : List Nat) : nbRuns l + 1 ≤ max l.length 1 := by
  match l with
  | [] => simp [nbRuns]
  | [_] => simp [nbRuns]
  | a :: b :: t => have := runsFrom_le t b (b - a) 1; simp only [nbRuns, List.length_cons]; omega

theorem wireIds_small {l : List Nat} {n : Nat} (hs : Sorted l) (hl : ∀ x ∈ l, x < n) (hn : n < 2 ^ 16) : WireIds l := by
  refine ⟨hs, fun x hx => ?_, smallGaps_of_lt hl hn, ?_⟩
  · have := hl x hx; omega
  · have := (sublist_range hs hl).length_le
    rw [List.length_range] at this
    have := nbRuns_lt l
    omega

end Netcode
