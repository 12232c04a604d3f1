import Verif.Model.Encoder
import Verif.Proofs.Encode
import Verif.Proofs.DecPrim
import Verif.Proofs.DecFrame

/-!
# The invariant of the encoder and of the packets it emitted
-/

set_option linter.unusedSectionVars false

namespace Netcode

variable {w : Nat} [Fact (0 < w)]

/-! ## From an emitted repair to a received one -/

theorem szBit_high (gf : GF w) (s : BitVec 16) (j i : Nat) (hi : i < w) (h : 16 ≤ w * j + i) :
    (szVec gf s j).bit i = false := by
  unfold szVec
  rw [wd_bit]
  simp only [hi, decide_true, Bool.true_and]
  show s.getLsbD (w * j + i) = false
  exact BitVec.getLsbD_of_ge _ _ h

theorem sum_high (gf : GF w) (l : List (Nat → FE gf)) (j i : Nat) (h : ∀ v ∈ l, (v j).bit i = false) :
    (l.sum j).bit i = false := by
  induction l with
  | nil => simp [FE.bit_zero]
  | cons v t ih =>
    rw [List.sum_cons, Pi.add_apply, FE.bit_add, h v (by simp), ih (fun u hu => h u (by simp [hu]))]
    rfl

/-- The source `x`, as the encoder holds it. -/
def srcOf (data : Nat → List Byte) (x : Nat) : ESource := ⟨x, data x⟩

/-- What the decoder gets from an emitted repair meets the decoder's expectations. -/
theorem repOk_of_wire (gf : GF w) (hv : ValidW w) (data : Nat → List Byte) (rid : Nat) (W : List Nat) (r : ERepair)
    (h : EncOk gf rid (W.map (srcOf data)) r) (hs : Sorted W) (hd : ∀ x ∈ W, DataOk w (data x))
    (hf : ∀ x ∈ W, SizeFits gf (coefficient w rid x) (BitVec.ofNat 16 (data x).length)) (rest : List Byte) :
    RepOk gf data { id := r.id, ids := r.ids, encSize := r.encSize, symSize := r.sym.length, buf := r.sym ++ rest } := by
  have hids : r.ids = W := by rw [h.ids, List.map_map]; exact List.map_id W
  have hid := h.id
  have hsl := h.symLen (fun x hx => by
    obtain ⟨y, hy, rfl⟩ := List.mem_map.1 hx; exact hd y hy)
  constructor
  · simpa [hids] using hs
  · simp
  · exact hsl.2.2
  · simpa [hids] using hd
  · intro x hx
    simp only [hids] at hx
    exact h.len (srcOf data x) (List.mem_map_of_mem hx)
  · intro x hx
    simp only [hids] at hx
    simp only [hid]
    exact hf x hx
  · simp only [List.take_left]
    rw [h.vec, hids, List.map_map, hid]
    rfl
  · simp only
    have e := h.enc
    rw [List.map_map] at e
    rw [hids, hid]
    refine trunc_exact e ?_
    intro j i hi h16
    apply sum_high
    intro v hv'
    obtain ⟨x, hx, rfl⟩ := List.mem_map.1 hv'
    show ((toFE gf (coefficient w rid x) • szVec gf (BitVec.ofNat 16 (data x).length)) j).bit i = false
    rw [← szVec_mulSize gf hv _ _ (hf x hx)]
    exact szBit_high gf _ j i hi h16

/-! ## source_list::erase -/

/-- On sorted lists, `erase` removes exactly the listed identifiers. -/
theorem eraseIds_eq (S : List ESource) (ids : List Nat) (hS : Sorted (S.map (·.id))) (hi : Sorted ids) :
    eraseIds S ids = S.filter (fun s => decide (s.id ∉ ids)) := by
  match S, ids with
  | [], _ => simp [eraseIds]
  | s :: t, [] => simp [eraseIds]
  | s :: t, i :: u =>
    rw [List.map_cons, Sorted, List.pairwise_cons] at hS
    have hi' := List.pairwise_cons.1 hi
    have htl : ∀ x ∈ t, s.id < x.id := fun x hx => hS.1 x.id (List.mem_map_of_mem hx)
    unfold eraseIds
    split
    · next e =>
      rw [eraseIds_eq t u hS.2 hi'.2, List.filter_cons_of_neg (by simp [e])]
      apply List.filter_congr
      intro x hx
      have := htl x hx
      have : x.id ≠ i := by omega
      simp [this]
    · next e =>
      split
      · next e2 =>
        rw [eraseIds_eq (s :: t) u (List.pairwise_cons.2 hS) hi'.2]
        apply List.filter_congr
        intro x hx
        have : x.id ≠ i := by
          rcases List.mem_cons.1 hx with rfl | hx
          · omega
          · have := htl x hx; omega
        simp [this]
      · next e2 =>
        have hlt : s.id < i := by omega
        have hmem : s.id ∉ i :: u := by
          intro hm
          rcases List.mem_cons.1 hm with h | h
          · omega
          · have := hi'.1 s.id h; omega
        rw [eraseIds_eq t (i :: u) hS.2 hi, List.filter_cons_of_pos (by simpa using hmem)]
termination_by S.length + ids.length

/-! ## Emissions -/

/-- A packet emitted by the encoder: the source `x`, or the repair `rid` of the sources `W`. -/
inductive Em where
  | src (x : Nat)
  | rep (rid : Nat) (W : List Nat)

/-- The sources a packet carries. -/
def Em.ids : Em → List Nat
  | .src x => [x]
  | .rep _ W => W

/-- The packet is what was emitted. -/
def Em.Renders (gf : GF w) (data : Nat → List Byte) : Em → EPkt → Prop
  | .src x, p => p = .source (srcOf data x)
  | .rep rid W, p => ∃ r, p = .repair r ∧ EncOk gf rid (W.map (srcOf data)) r ∧ W ≠ [] ∧ Sorted W

/-- Identifiers in the window. -/
def Enc.win (e : Enc) : List Nat := e.sources.map (·.id)

/-- Sources that left the window `W` are acknowledged (in `A`) or older than the whole window. -/
def Gone (A : Set Nat) (W : List Nat) (x : Nat) : Prop := x ∈ W ∨ x ∈ A ∨ ∀ y ∈ W, x < y

/-- Invariant of the encoder, `n` being the number of committed data, `A` the acknowledged sources and
`ems` the packets emitted. -/
structure EncInv (gf : GF w) (data : Nat → List Byte) (ems : List Em) (A : Set Nat) (n : Nat) (e : Enc) : Prop where
  srcSorted : Sorted e.win
  srcs : e.sources = e.win.map (srcOf data)
  srcLt : ∀ x ∈ e.win, x < n
  dataOk : ∀ x < n, DataOk w (data x)
  outLen : e.out.length = ems.length
  rend : ∀ (i : Nat) (em : Em) (p : EPkt), ems[i]? = some em → e.out[i]? = some p → em.Renders gf data p
  emLt : ∀ em ∈ ems, ∀ x ∈ em.ids, x < n
  repLt : ∀ rid W, Em.rep rid W ∈ ems → rid < e.curRep
  repBound : e.curRep < 2 ^ 32
  ridMono : ∀ (i j ri rj : Nat) (Wi Wj : List Nat), i < j → ems[i]? = some (.rep ri Wi) → ems[j]? = some (.rep rj Wj) → ri < rj
  f1w : ∀ em ∈ ems, ∀ x ∈ em.ids, Gone A e.win x
  f1 : ∀ (i j : Nat) (em : Em) (rj : Nat) (Wj : List Nat), i < j → ems[i]? = some em → ems[j]? = some (.rep rj Wj) →
    ∀ x ∈ em.ids, Gone A Wj x
  f2w : ∀ rid W, Em.rep rid W ∈ ems → ∀ y ∈ e.win, ∀ z ∈ W, y ≤ z → y ∈ W
  f2 : ∀ (i j ri rj : Nat) (Wi Wj : List Nat), i < j → ems[i]? = some (.rep ri Wi) → ems[j]? = some (.rep rj Wj) →
    ∀ y ∈ Wj, ∀ z ∈ Wi, y ≤ z → y ∈ Wi
  later : ∀ (i j : Nat) (em : Em) (x : Nat), i < j → ems[i]? = some em → ems[j]? = some (.src x) → ∀ z ∈ em.ids, z < x

section
variable {gf : GF w} {data : Nat → List Byte} {ems : List Em} {A : Set Nat} {n : Nat} {e : Enc}

theorem encInv_init : EncInv gf data [] ∅ 0 Enc.init := by
  constructor <;> simp [Enc.init, Enc.win]

theorem getElem?_append_singleton {α : Type} {l : List α} {a b : α} {i : Nat} (h : (l ++ [a])[i]? = some b) :
    (i < l.length ∧ l[i]? = some b) ∨ (i = l.length ∧ a = b) := by
  rcases Nat.lt_trichotomy i l.length with hlt | heq | hgt
  · rw [List.getElem?_append_left hlt] at h; exact Or.inl ⟨hlt, h⟩
  · right
    subst heq
    simp at h
    exact ⟨rfl, h⟩
  · rw [List.getElem?_append_right (by omega)] at h
    have : (i - l.length) ≠ 0 := by omega
    rw [List.getElem?_singleton, if_neg this] at h
    cases h

theorem getElem?_lt {α : Type} {l : List α} {i : Nat} {a : α} (h : l[i]? = some a) : i < l.length := by
  by_contra hc
  rw [List.getElem?_eq_none (by omega)] at h
  cases h

/-- The fields that the invariant does not mention may change. -/
theorem EncInv.congr (h : EncInv gf data ems A n e) {e' : Enc} (h1 : e'.sources = e.sources) (h2 : e'.out = e.out)
    (h3 : e'.curRep = e.curRep) : EncInv gf data ems A n e' := by
  have hw : e'.win = e.win := by unfold Enc.win; rw [h1]
  obtain ⟨a1, a2, a3, a4, a5, a6, a7, a8, a9, a10, a11, a12, a13, a14, a15⟩ := h
  constructor <;> (try simp only [hw, h1, h2, h3]) <;> assumption

/-- A datum enters the window. -/
theorem EncInv.push (h : EncInv gf data ems A n e) (hd : DataOk w (data n)) (t : List ESource)
    (ht : t = e.sources ∨ t = e.sources.tail) :
    EncInv gf data ems A (n + 1) { e with sources := t ++ [srcOf data n] } := by
  have hsub : List.Sublist (t.map (·.id)) e.win := by
    rcases ht with rfl | rfl
    · exact List.Sublist.refl _
    · exact (List.tail_sublist _).map _
  have hwin : ({ e with sources := t ++ [srcOf data n] } : Enc).win = t.map (·.id) ++ [n] := by
    simp [Enc.win, srcOf]
  have hlt : ∀ x ∈ t.map (·.id), x < n := fun x hx => h.srcLt x (hsub.subset hx)
  have hgone : ∀ x, x < n → Gone A e.win x → Gone A (t.map (·.id) ++ [n]) x := by
    intro x hxn hx
    rcases hx with hx | hx | hx
    · rcases ht with rfl | rfl
      · exact Or.inl (List.mem_append_left _ hx)
      · cases hs : e.sources with
        | nil => unfold Enc.win at hx; rw [hs] at hx; cases hx
        | cons a u =>
          have hso := h.srcSorted
          unfold Enc.win at hx hso
          rw [hs, List.map_cons] at hx hso
          rcases List.mem_cons.1 hx with rfl | hx
          · refine Or.inr (Or.inr ?_)
            intro y hy
            rcases List.mem_append.1 hy with hy | hy
            · exact (List.pairwise_cons.1 hso).1 y hy
            · rw [List.mem_singleton.1 hy]; exact hxn
          · exact Or.inl (List.mem_append_left _ hx)
    · exact Or.inr (Or.inl hx)
    · refine Or.inr (Or.inr ?_)
      intro y hy
      rcases List.mem_append.1 hy with hy | hy
      · exact hx y (hsub.subset hy)
      · rw [List.mem_singleton.1 hy]; exact hxn
  have hsrcs : t = (t.map (·.id)).map (srcOf data) := by
    have h0 := h.srcs
    unfold Enc.win at h0
    rcases ht with rfl | rfl
    · exact h0
    · rw [List.map_tail, List.map_tail, ← h0]
  constructor
  · rw [hwin]
    rw [Sorted, List.pairwise_append]
    refine ⟨h.srcSorted.sublist hsub, List.pairwise_singleton _ _, ?_⟩
    intro a ha b hb
    rw [List.mem_singleton.1 hb]; exact hlt a ha
  · rw [hwin]
    show t ++ [srcOf data n] = _
    rw [List.map_append, ← hsrcs]; rfl
  · rw [hwin]
    intro x hx
    rcases List.mem_append.1 hx with hx | hx
    · have := hlt x hx; omega
    · rw [List.mem_singleton.1 hx]; omega
  · intro x hx
    rcases Nat.lt_or_ge x n with h1 | h1
    · exact h.dataOk x h1
    · have : x = n := by omega
      subst this; exact hd
  · exact h.outLen
  · exact h.rend
  · intro em hem x hx
    have := h.emLt em hem x hx
    omega
  · exact h.repLt
  · exact h.repBound
  · exact h.ridMono
  · rw [hwin]
    intro em hem x hx
    exact hgone x (h.emLt em hem x hx) (h.f1w em hem x hx)
  · exact h.f1
  · rw [hwin]
    intro rid W hem y hy z hz hyz
    rcases List.mem_append.1 hy with hy | hy
    · exact h.f2w rid W hem y (hsub.subset hy) z hz hyz
    · rw [List.mem_singleton.1 hy] at hyz
      have := h.emLt _ hem z hz
      omega
  · exact h.f2
  · exact h.later

/-- A source packet is emitted. -/
theorem EncInv.emitSrc (h : EncInv gf data ems A (n + 1) e) (hw : n ∈ e.win) (hn : ∀ em ∈ ems, ∀ x ∈ em.ids, x < n)
    {e' : Enc} (h1 : e'.sources = e.sources) (h2 : e'.out = e.out ++ [.source (srcOf data n)])
    (h3 : e'.curRep = e.curRep) : EncInv gf data (ems ++ [.src n]) A (n + 1) e' := by
  have hwin : e'.win = e.win := by unfold Enc.win; rw [h1]
  have hl := h.outLen
  constructor
  · rw [hwin]; exact h.srcSorted
  · rw [hwin, h1]; exact h.srcs
  · rw [hwin]; exact h.srcLt
  · exact h.dataOk
  · rw [h2]; simp [hl]
  · intro i em p he hp
    rw [h2] at hp
    rcases getElem?_append_singleton he with ⟨a1, a2⟩ | ⟨a1, a2⟩
    · rw [List.getElem?_append_left (by omega)] at hp
      exact h.rend i em p a2 hp
    · rcases getElem?_append_singleton hp with ⟨b1, b2⟩ | ⟨b1, b2⟩
      · omega
      · subst a2; exact b2.symm
  · intro em hem x hx
    rcases List.mem_append.1 hem with hm | hm
    · have := hn em hm x hx; omega
    · rw [List.mem_singleton] at hm
      subst hm
      simp only [Em.ids, List.mem_singleton] at hx
      omega
  · intro rid W hem
    rcases List.mem_append.1 hem with hm | hm
    · rw [h3]; exact h.repLt rid W hm
    · simp at hm
  · rw [h3]; exact h.repBound
  · intro i j ri rj Wi Wj hij hi hj
    rcases getElem?_append_singleton hj with ⟨a1, a2⟩ | ⟨a1, a2⟩
    · rcases getElem?_append_singleton hi with ⟨b1, b2⟩ | ⟨b1, b2⟩
      · exact h.ridMono i j ri rj Wi Wj hij b2 a2
      · omega
    · cases a2
  · rw [hwin]
    intro em hem x hx
    rcases List.mem_append.1 hem with hm | hm
    · exact h.f1w em hm x hx
    · rw [List.mem_singleton] at hm
      subst hm
      simp only [Em.ids, List.mem_singleton] at hx
      subst hx; exact Or.inl hw
  · intro i j em rj Wj hij hi hj
    rcases getElem?_append_singleton hj with ⟨a1, a2⟩ | ⟨a1, a2⟩
    · rcases getElem?_append_singleton hi with ⟨b1, b2⟩ | ⟨b1, b2⟩
      · exact h.f1 i j em rj Wj hij b2 a2
      · omega
    · cases a2
  · rw [hwin]
    intro rid W hem
    rcases List.mem_append.1 hem with hm | hm
    · exact h.f2w rid W hm
    · simp at hm
  · intro i j ri rj Wi Wj hij hi hj
    rcases getElem?_append_singleton hj with ⟨a1, a2⟩ | ⟨a1, a2⟩
    · rcases getElem?_append_singleton hi with ⟨b1, b2⟩ | ⟨b1, b2⟩
      · exact h.f2 i j ri rj Wi Wj hij b2 a2
      · omega
    · cases a2
  · intro i j em x hij hi hj z hz
    rcases getElem?_append_singleton hj with ⟨a1, a2⟩ | ⟨a1, a2⟩
    · rcases getElem?_append_singleton hi with ⟨b1, b2⟩ | ⟨b1, b2⟩
      · exact h.later i j em x hij b2 a2 z hz
      · omega
    · cases a2
      rcases getElem?_append_singleton hi with ⟨b1, b2⟩ | ⟨b1, b2⟩
      · exact hn em (List.mem_of_getElem? b2) z hz
      · omega

/-- A repair is emitted. -/
theorem EncInv.emitRep (h : EncInv gf data ems A n e) (r : ERepair) (hr : EncOk gf e.curRep e.sources r)
    (hne : e.sources ≠ []) {e' : Enc} (h1 : e'.sources = e.sources) (h2 : e'.out = e.out ++ [.repair r])
    (h3 : e'.curRep = e.curRep + 1) (hb : e.curRep + 1 < 2 ^ 32) :
    EncInv gf data (ems ++ [.rep e.curRep e.win]) A n e' := by
  have hwin : e'.win = e.win := by unfold Enc.win; rw [h1]
  have hl := h.outLen
  constructor
  · rw [hwin]; exact h.srcSorted
  · rw [hwin, h1]; exact h.srcs
  · rw [hwin]; exact h.srcLt
  · exact h.dataOk
  · rw [h2]; simp [hl]
  · intro i em p he hp
    rw [h2] at hp
    rcases getElem?_append_singleton he with ⟨a1, a2⟩ | ⟨a1, a2⟩
    · rw [List.getElem?_append_left (by omega)] at hp
      exact h.rend i em p a2 hp
    · rcases getElem?_append_singleton hp with ⟨b1, b2⟩ | ⟨b1, b2⟩
      · omega
      · subst a2
        refine ⟨r, b2.symm, ?_, ?_, h.srcSorted⟩
        · rw [← h.srcs]; exact hr
        · intro hc; apply hne; unfold Enc.win at hc; simpa using hc
  · intro em hem x hx
    rcases List.mem_append.1 hem with hm | hm
    · exact h.emLt em hm x hx
    · rw [List.mem_singleton] at hm
      subst hm
      exact h.srcLt x hx
  · intro rid W hem
    rw [h3]
    rcases List.mem_append.1 hem with hm | hm
    · have := h.repLt rid W hm; omega
    · simp only [List.mem_singleton, Em.rep.injEq] at hm; omega
  · rw [h3]; exact hb
  · intro i j ri rj Wi Wj hij hi hj
    rcases getElem?_append_singleton hj with ⟨a1, a2⟩ | ⟨a1, a2⟩
    · rcases getElem?_append_singleton hi with ⟨b1, b2⟩ | ⟨b1, b2⟩
      · exact h.ridMono i j ri rj Wi Wj hij b2 a2
      · omega
    · cases a2
      rcases getElem?_append_singleton hi with ⟨b1, b2⟩ | ⟨b1, b2⟩
      · exact h.repLt _ _ (List.mem_of_getElem? b2)
      · omega
  · rw [hwin]
    intro em hem x hx
    rcases List.mem_append.1 hem with hm | hm
    · exact h.f1w em hm x hx
    · rw [List.mem_singleton] at hm
      subst hm
      exact Or.inl hx
  · intro i j em rj Wj hij hi hj
    rcases getElem?_append_singleton hj with ⟨a1, a2⟩ | ⟨a1, a2⟩
    · rcases getElem?_append_singleton hi with ⟨b1, b2⟩ | ⟨b1, b2⟩
      · exact h.f1 i j em rj Wj hij b2 a2
      · omega
    · cases a2
      rcases getElem?_append_singleton hi with ⟨b1, b2⟩ | ⟨b1, b2⟩
      · exact h.f1w em (List.mem_of_getElem? b2)
      · omega
  · rw [hwin]
    intro rid W hem
    rcases List.mem_append.1 hem with hm | hm
    · exact h.f2w rid W hm
    · simp only [List.mem_singleton, Em.rep.injEq] at hm
      obtain ⟨_, rfl⟩ := hm
      intro y hy _ _ _; exact hy
  · intro i j ri rj Wi Wj hij hi hj
    rcases getElem?_append_singleton hj with ⟨a1, a2⟩ | ⟨a1, a2⟩
    · rcases getElem?_append_singleton hi with ⟨b1, b2⟩ | ⟨b1, b2⟩
      · exact h.f2 i j ri rj Wi Wj hij b2 a2
      · omega
    · cases a2
      rcases getElem?_append_singleton hi with ⟨b1, b2⟩ | ⟨b1, b2⟩
      · exact h.f2w _ _ (List.mem_of_getElem? b2)
      · omega
  · intro i j em x hij hi hj z hz
    rcases getElem?_append_singleton hj with ⟨a1, a2⟩ | ⟨a1, a2⟩
    · rcases getElem?_append_singleton hi with ⟨b1, b2⟩ | ⟨b1, b2⟩
      · exact h.later i j em x hij b2 a2 z hz
      · omega
    · cases a2

/-- An ack removes sources from the window. -/
theorem EncInv.ack (h : EncInv gf data ems A n e) (ids : List Nat) {e' : Enc}
    (h1 : e'.sources = e.sources.filter (fun s => decide (s.id ∉ ids))) (h2 : e'.out = e.out)
    (h3 : e'.curRep = e.curRep) : EncInv gf data ems (A ∪ {x | x ∈ ids}) n e' := by
  have hwin : e'.win = e.win.filter (fun x => decide (x ∉ ids)) := by
    unfold Enc.win; rw [h1, List.filter_map]; rfl
  have hsub : ∀ x ∈ e'.win, x ∈ e.win := fun x hx => by rw [hwin] at hx; exact List.mem_of_mem_filter hx
  have hA : ∀ {W : List Nat} {x : Nat}, Gone A W x → Gone (A ∪ {x | x ∈ ids}) W x := by
    intro W x hx
    rcases hx with hx | hx | hx
    · exact Or.inl hx
    · exact Or.inr (Or.inl (Or.inl hx))
    · exact Or.inr (Or.inr hx)
  constructor
  · rw [hwin]; exact h.srcSorted.filter _
  · rw [hwin, h1]
    conv_lhs => rw [h.srcs]
    rw [List.filter_map]; rfl
  · exact fun x hx => h.srcLt x (hsub x hx)
  · exact h.dataOk
  · rw [h2]; exact h.outLen
  · rw [h2]; exact h.rend
  · exact h.emLt
  · rw [h3]; exact h.repLt
  · rw [h3]; exact h.repBound
  · exact h.ridMono
  · intro em hem x hx
    rcases h.f1w em hem x hx with hg | hg | hg
    · by_cases hi : x ∈ ids
      · exact Or.inr (Or.inl (Or.inr hi))
      · refine Or.inl ?_
        rw [hwin, List.mem_filter]; exact ⟨hg, by simpa using hi⟩
    · exact Or.inr (Or.inl (Or.inl hg))
    · exact Or.inr (Or.inr (fun y hy => hg y (hsub y hy)))
  · intro i j em rj Wj hij hi hj x hx
    exact hA (h.f1 i j em rj Wj hij hi hj x hx)
  · intro rid W hem y hy
    exact h.f2w rid W hem y (hsub y hy)
  · exact h.f2
  · exact h.later

/-! ## The calls -/

theorem EncInv.sources_dataOk (h : EncInv gf data ems A n e) : ∀ s ∈ e.sources, DataOk w s.sym := by
  intro s hs
  rw [h.srcs] at hs
  obtain ⟨x, hx, rfl⟩ := List.mem_map.1 hs
  exact h.dataOk x (h.srcLt x hx)

/-- `generateRepair` on a non-empty window. -/
theorem EncInv.generateRepair (h : EncInv gf data ems A n e) (hv : ValidW w) (dbg : Bool) (hne : e.sources ≠ [])
    (hb : e.curRep + 1 < 2 ^ 32) :
    ∃ r, EncOk gf e.curRep e.sources r ∧
    e.generateRepair gf dbg = .ok { e with
      curRep := e.curRep + 1
      nbSentRepairs := e.nbSentRepairs + 1
      nbSentPackets := (e.nbSentPackets + 1) % 2 ^ 16
      out := e.out ++ [.repair r] } := by
  obtain ⟨r, e1, hr⟩ := encodeRepair_ok gf hv dbg e.curRep e.sources hne h.sources_dataOk h.srcSorted
  refine ⟨r, hr, ?_⟩
  unfold Enc.generateRepair
  have hl := (hr.symLen h.sources_dataOk).1
  simp only [e1, bind, Except.bind]
  rw [cassert_true _ (by simpa using hl)]
  simp only [Nat.mod_eq_of_lt hb]
  rfl

/-- Which packets a commit emits. -/
theorem EncInv.commit (h : EncInv gf data ems A n e) (hv : ValidW w) (dbg : Bool) (hcur : e.curSrc = n)
    (hd : DataOk w (data n)) (hn : n + 1 < 2 ^ 32) (hb : e.curRep + 2 < 2 ^ 32) (hr : e.rate ≠ 0)
    (hw : e.windowSize ≠ 0) :
    ∃ e' new, e.commit gf dbg (data n) = .ok e' ∧ EncInv gf data (ems ++ new) A (n + 1) e' ∧ e'.curSrc = n + 1 ∧
      e'.rate = e.rate ∧ e'.windowSize = e.windowSize ∧ e'.adaptive = e.adaptive ∧ e'.systematic = e.systematic ∧
      e'.sources = (if e.sources.length = e.windowSize then e.sources.tail else e.sources) ++ [srcOf data n] ∧
      new = (if e.systematic then [Em.src n] else [Em.rep e.curRep e'.win]) ++
        (if (n + 1) % e.rate = 0 then [Em.rep (if e.systematic then e.curRep else e.curRep + 1) e'.win] else []) ∧
      e'.curRep = e.curRep + (if e.systematic then 0 else 1) + (if (n + 1) % e.rate = 0 then 1 else 0) ∧
      e'.nbSentRepairs = e.nbSentRepairs + (if e.systematic then 0 else 1) + (if (n + 1) % e.rate = 0 then 1 else 0) ∧
      e'.nbSentSources = e.nbSentSources + (if e.systematic then 1 else 0) ∧ e'.nbAcks = e.nbAcks ∧
      e.out <+: e'.out := by
  have hemlt := h.emLt
  generalize ht : (if e.sources.length = e.windowSize then e.sources.tail else e.sources) = t
  have ht' : t = e.sources ∨ t = e.sources.tail := by
    rw [← ht]; split
    · exact Or.inr rfl
    · exact Or.inl rfl
  have h1 := h.push hd t ht'
  generalize he1 : ({ e with sources := t ++ [srcOf data n] } : Enc) = e1 at h1
  have f_src : e1.sources = t ++ [srcOf data n] := by rw [← he1]
  have f_out : e1.out = e.out := by rw [← he1]
  have f_cr : e1.curRep = e.curRep := by rw [← he1]
  have f_cs : e1.curSrc = e.curSrc := by rw [← he1]
  have f_rate : e1.rate = e.rate := by rw [← he1]
  have f_ws : e1.windowSize = e.windowSize := by rw [← he1]
  have f_ad : e1.adaptive = e.adaptive := by rw [← he1]
  have f_sys : e1.systematic = e.systematic := by rw [← he1]
  have f_nr : e1.nbSentRepairs = e.nbSentRepairs := by rw [← he1]
  have f_ns : e1.nbSentSources = e.nbSentSources := by rw [← he1]
  have f_na : e1.nbAcks = e.nbAcks := by rw [← he1]
  have f_ne : e1.sources ≠ [] := by rw [f_src]; simp
  have f_mem : n ∈ e1.win := by unfold Enc.win; rw [f_src]; simp [srcOf]
  -- the first packet
  obtain ⟨e2, new1, g_eq, g_inv, g_src, g_cr, g_cs, g_rate, g_ws, g_ad, g_sys, g_new, g_nr, g_ns, g_na, g_out⟩ :
      ∃ e2 new1, e1.emitNew gf dbg (srcOf data n) = .ok e2 ∧ EncInv gf data (ems ++ new1) A (n + 1) e2 ∧ e2.sources = e1.sources ∧
        e2.curRep = e.curRep + (if e.systematic then 0 else 1) ∧ e2.curSrc = n ∧ e2.rate = e.rate ∧
        e2.windowSize = e.windowSize ∧ e2.adaptive = e.adaptive ∧ e2.systematic = e.systematic ∧
        new1 = (if e.systematic then [Em.src n] else [Em.rep e.curRep e1.win]) ∧
        e2.nbSentRepairs = e.nbSentRepairs + (if e.systematic then 0 else 1) ∧
        e2.nbSentSources = e.nbSentSources + (if e.systematic then 1 else 0) ∧ e2.nbAcks = e.nbAcks ∧
        e.out <+: e2.out := by
    unfold Enc.emitNew
    by_cases hsys : e1.systematic = true
    · have hsys' : e.systematic = true := by rw [← f_sys]; exact hsys
      rw [if_pos hsys]
      refine ⟨_, [.src n], rfl, h1.emitSrc f_mem hemlt rfl rfl rfl, rfl, ?_, ?_, f_rate, f_ws, f_ad, ?_, ?_, ?_, ?_, f_na, ?_⟩
      · simp [hsys', f_cr]
      · simpa [hcur] using f_cs
      · exact f_sys
      · simp [hsys']
      · simp [hsys', f_nr]
      · simp [hsys', f_ns]
      · simp [f_out]
    · have hsys' : e.systematic = false := by rw [← f_sys]; simpa using hsys
      rw [if_neg hsys]
      obtain ⟨r, hr1, hr2⟩ := h1.generateRepair hv dbg f_ne (by omega)
      rw [f_cr] at hr1
      refine ⟨_, [.rep e.curRep e1.win], hr2, ?_, rfl, ?_, ?_, f_rate, f_ws, f_ad, ?_, ?_, ?_, ?_, f_na, ?_⟩
      · rw [← f_cr]
        exact h1.emitRep r (by rw [f_cr]; exact hr1) f_ne rfl rfl rfl (by omega)
      · simp [hsys', f_cr]
      · simpa [hcur] using f_cs
      · exact f_sys
      · simp [hsys']
      · simp [hsys', f_nr]
      · simp [hsys', f_ns]
      · simp [f_out]
  -- the automatic repair
  have g_win : e2.win = e1.win := by unfold Enc.win; rw [g_src]
  obtain ⟨e3, new2, k_eq, k_inv, k_src, k_cr, k_cs, k_rate, k_ws, k_ad, k_sys, k_new, k_nr, k_ns, k_na, k_out⟩ :
      ∃ e3 new2, e2.autoRepair gf dbg = .ok e3 ∧
        EncInv gf data (ems ++ (new1 ++ new2)) A (n + 1) e3 ∧ e3.sources = e1.sources ∧
        e3.curRep = e2.curRep + (if (n + 1) % e.rate = 0 then 1 else 0) ∧ e3.curSrc = n ∧ e3.rate = e.rate ∧
        e3.windowSize = e.windowSize ∧ e3.adaptive = e.adaptive ∧ e3.systematic = e.systematic ∧
        new2 = (if (n + 1) % e.rate = 0 then [Em.rep e2.curRep e1.win] else []) ∧
        e3.nbSentRepairs = e2.nbSentRepairs + (if (n + 1) % e.rate = 0 then 1 else 0) ∧
        e3.nbSentSources = e2.nbSentSources ∧ e3.nbAcks = e.nbAcks ∧ e.out <+: e3.out := by
    have hmod : (e2.curSrc + 1) % 2 ^ 32 % e2.rate = (n + 1) % e.rate := by
      rw [g_cs, g_rate, Nat.mod_eq_of_lt hn]
    unfold Enc.autoRepair
    rw [ensure_true _ (by simpa [g_rate] using hr)]
    simp only [bind, Except.bind]
    rw [hmod]
    by_cases hc : (n + 1) % e.rate = 0
    · simp only [hc, if_true]
      have hcr : e2.curRep + 1 < 2 ^ 32 := by
        rw [g_cr]; split <;> omega
      obtain ⟨r, hr1, hr2⟩ := g_inv.generateRepair hv dbg (by rw [g_src]; exact f_ne) hcr
      refine ⟨_, [.rep e2.curRep e2.win], hr2, ?_, g_src, rfl, g_cs, g_rate, g_ws, g_ad, g_sys, by rw [g_win], rfl, rfl, g_na, ?_⟩
      · rw [← List.append_assoc]
        exact g_inv.emitRep r hr1 (by rw [g_src]; exact f_ne) rfl rfl rfl hcr
      · exact g_out.trans (List.prefix_append _ _)
    · simp only [hc, if_false]
      exact ⟨e2, [], rfl, by simpa using g_inv, g_src, rfl, g_cs, g_rate, g_ws, g_ad, g_sys, rfl, rfl, rfl, g_na, g_out⟩
  refine ⟨{ e3 with curSrc := n + 1 }, new1 ++ new2, ?_, k_inv.congr rfl rfl rfl, rfl, k_rate, k_ws, k_ad, k_sys, ?_, ?_, ?_, ?_,
    ?_, k_na, k_out⟩
  · unfold Enc.commit
    have hl := hd.1
    have ha := hd.2.2
    rw [cassert_true _ (by simp; exact List.ne_nil_of_length_pos hl)]
    rw [cassert_true _ (by
      simp only [ne_eq, decide_eq_true_eq]
      by_cases h16 : w = 16
      · subst h16; right; omega
      · exact Or.inl h16)]
    rw [cassert_true _ (by
      simp only [ne_eq, decide_eq_true_eq]
      by_cases h16 : w = 32
      · subst h16; right; omega
      · exact Or.inl h16)]
    rw [ensure_true _ (by
      cases hs : e.sources with
      | nil => simp; omega
      | cons a b => simp)]
    simp only [bind, Except.bind]
    have hsrc : ({ id := e.curSrc, sym := data n } : ESource) = srcOf data n := by rw [hcur]; rfl
    rw [ht, hsrc]
    rw [show ({ e with sources := t ++ [srcOf data n] } : Enc) = e1 from he1]
    rw [g_eq]
    simp only
    rw [k_eq]
    simp only [k_cs, Nat.mod_eq_of_lt hn]
    rfl
  · show e3.sources = _
    rw [k_src, f_src]
  · have hw3 : ({ e3 with curSrc := n + 1 } : Enc).win = e1.win := by unfold Enc.win; simp only [k_src]
    rw [g_new, k_new, hw3, g_cr]
    cases hsys : e.systematic <;> simp
  · show e3.curRep = _
    rw [k_cr, g_cr]
  · show e3.nbSentRepairs = _
    rw [k_nr, g_nr]
  · show e3.nbSentSources = _
    rw [k_ns, g_ns]

end

end Netcode
