import Verif.Spec.Faults
import Verif.Proofs.Crafted
import Verif.Proofs.DecAny

/-!
# Faults of the decoder
-/

namespace Netcode

variable {w : Nat}
open OMap

/-- What an outcome may be. -/
def Only (P : Fault → Prop) {α : Type} (Q : α → Prop) : Out α → Prop
  | .ok a => Q a
  | .error f => P f

theorem Only.bind {P : Fault → Prop} {α β : Type} {Q : α → Prop} {R : β → Prop} {x : Out α} {f : α → Out β} (h : Only P Q x)
    (hf : ∀ a, Q a → Only P R (f a)) : Only P R (x >>= f) := by
  cases x with
  | error e => exact h
  | ok a => exact hf a h

theorem Only.mono {P : Fault → Prop} {α : Type} {Q R : α → Prop} {x : Out α} (h : Only P Q x) (hf : ∀ a, Q a → R a) : Only P R x := by
  cases x with
  | error e => exact h
  | ok a => exact hf a h

/-- The faults allowed, with the bound of the recursion (which is never reached, C38). -/
def DecFault' (w : Nat) (dbg : Bool) (f : Fault) : Prop := DecFault w dbg f ∨ f = .fuel

theorem only_ub {dbg : Bool} {α : Type} {Q : α → Prop} {k : UB} (h : DecFault w dbg (.ub k)) :
    Only (DecFault' w dbg) Q (.error (.ub k) : Out α) := Or.inl h

theorem only_assert {dbg b : Bool} {P : Prop} (h : (dbg = true → b = true) → P) : Only (DecFault' w dbg) (fun _ => P) (cassert dbg b) := by
  unfold cassert
  split
  · rename_i hc
    simp only [Bool.and_eq_true] at hc
    exact .inl hc.1
  · rename_i hc
    refine h (fun hd => ?_)
    subst hd
    simpa using hc

theorem only_ensure {dbg b : Bool} {k : UB} {P : Prop} (hk : b = false → DecFault w dbg (.ub k)) (h : b = true → P) :
    Only (DecFault' w dbg) (fun _ => P) (ensure b k) := by
  unfold ensure
  split
  · rename_i hc; exact h hc
  · rename_i hc; exact .inl (hk (by simpa using hc))

theorem aligned_of_dvd (n : Nat) (h : w ∣ 8) : (8 * n % w == 0) = true := by
  have : w ∣ 8 * n := Dvd.dvd.mul_right h n
  simp [Nat.mod_eq_zero_of_dvd this]

theorem only_gfMultiply (gf : GF w) (dbg : Bool) (src : List Byte) (n : Nat) (c : BitVec w) :
    Only (DecFault' w dbg) (fun l => l.length = n) (gfMultiply gf src n c) := by
  unfold gfMultiply
  refine (only_ensure (P := n ≤ src.length) (fun _ => by trivial) (by simp)).bind fun _ h => ?_
  refine (only_ensure (P := True) (fun hf => ?_) (fun _ => trivial)).bind fun _ _ => ?_
  · show ¬ w ∣ 8
    intro hw
    rw [aligned_of_dvd n hw] at hf; cases hf
  · show (mulRegion gf c (src.take n)).length = n
    rw [mulRegion_length, List.length_take]; omega

theorem only_gfMultiplyAdd (gf : GF w) (dbg : Bool) (src dst : List Byte) (n : Nat) (c : BitVec w) (hn : dbg = true → n ≤ dst.length) :
    Only (DecFault' w dbg) (fun l => l.length = dst.length) (gfMultiplyAdd gf src dst n c) := by
  unfold gfMultiplyAdd
  refine (only_ensure (P := True) (fun _ => by trivial) (fun _ => trivial)).bind fun _ _ => ?_
  refine (only_ensure (P := True) (fun hf => ?_) (fun _ => trivial)).bind fun _ _ => ?_
  · show dbg = false
    cases dbg with
    | false => rfl
    | true => simp only [decide_eq_false_iff_not] at hf; exact absurd (hn rfl) hf
  refine (only_ensure (P := True) (fun hf => ?_) (fun _ => trivial)).bind fun _ _ => ?_
  · show ¬ w ∣ 8
    intro hw
    rw [aligned_of_dvd n hw] at hf; cases hf
  · show (xorPrefix _ _).length = _
    rw [xorPrefix_length]

/-- The symbol of a repair is in its buffer. -/
def DRepair.InBuffer (r : DRepair) : Prop := r.symSize ≤ r.buf.length

/-- So for all repairs held. -/
def InBuffer (R : OMap DRepair) : Prop := ∀ p ∈ R, p.2.InBuffer

theorem inBuffer_sub {R R' : OMap DRepair} (h : InBuffer R) (hs : ∀ p ∈ R', p ∈ R) : InBuffer R' := fun p hp => h p (hs p hp)

theorem inBuffer_erase {R : OMap DRepair} (h : InBuffer R) (k : Nat) : InBuffer (R.erase k) :=
  inBuffer_sub h (fun p hp => ((OMap.mem_erase _ _ _).1 hp).1)

theorem only_createSource (gf : GF w) (dbg : Bool) (r : DRepair) : Only (DecFault' w dbg) (fun _ => True) (createSource gf dbg r) := by
  unfold createSource
  refine (only_assert (P := True) (fun _ => trivial)).bind fun _ _ => ?_
  cases r.ids with
  | nil => exact only_ub trivial
  | cons x t => exact (only_gfMultiply gf dbg _ _ _).bind fun _ _ => trivial

theorem only_removeData (gf : GF w) (dbg : Bool) (src : DSource) (r : DRepair) (hr : r.InBuffer) :
    Only (DecFault' w dbg) DRepair.InBuffer (removeData gf dbg src r) := by
  unfold removeData
  refine (only_assert (P := True) (fun _ => trivial)).bind fun _ _ => ?_
  refine (only_assert (P := dbg = true → src.sym.length ≤ r.symSize) (fun h hd => by simpa using h hd)).bind fun _ h => ?_
  refine (only_gfMultiplyAdd gf dbg _ _ _ _ (fun hd => Nat.le_trans (h hd) hr)).bind fun b hb => ?_
  show r.symSize ≤ b.length
  rw [hb]; exact hr

theorem only_removeFromRepair (gf : GF w) (dbg : Bool) (src : DSource) (r : DRepair) (hr : r.InBuffer) :
    Only (DecFault' w dbg) DRepair.InBuffer (removeFromRepair gf dbg src r) := by
  unfold removeFromRepair
  refine (only_removeData gf dbg src r hr).bind fun r' hr' => ?_
  refine (only_assert (P := True) (fun _ => trivial)).bind fun _ _ => ?_
  exact (only_ensure (P := True) (fun _ => by trivial) (fun _ => trivial)).bind fun _ _ => hr'

theorem only_removeFromAll (gf : GF w) (dbg : Bool) (src : DSource) (l : List Nat) (s : Dec) (h : InBuffer s.repairs) :
    Only (DecFault' w dbg) (fun s => InBuffer s.repairs) (removeFromAll gf dbg src l s) := by
  induction l generalizing s with
  | nil => exact h
  | cons x t ih =>
    unfold removeFromAll
    cases hx : s.repairs.get? x with
    | none => exact only_ub trivial
    | some r =>
      refine (only_removeFromRepair gf dbg src r (h _ (mem_of_get? hx))).bind fun r' hr' => ?_
      refine ih _ ?_
      intro p hp
      have hp : p ∈ s.repairs.modify x (fun _ => r') := hp
      rcases mem_modify_or hp with hp | ⟨_, -, rfl⟩
      · exact h p hp
      · exact hr'

theorem only_callbackOrdered (dbg : Bool) (s : Dec) (x : Nat) :
    Only (DecFault' w dbg) (fun s' => s'.repairs = s.repairs) (s.callbackOrdered x) := by
  unfold Dec.callbackOrdered
  cases s.sources.get? x with
  | none => exact only_ub trivial
  | some v => exact rfl

theorem only_flushLoop (dbg : Bool) (l : List Nat) (s : Dec) :
    Only (DecFault' w dbg) (fun s' => s'.repairs = s.repairs) (flushLoop dbg l s) := by
  induction l generalizing s with
  | nil => exact rfl
  | cons x t ih =>
    unfold flushLoop
    refine (only_assert (P := True) (fun _ => trivial)).bind fun _ _ => ?_
    refine (only_callbackOrdered dbg s x).bind fun s1 h1 => ?_
    cases t with
    | nil => exact h1
    | cons y t =>
      simp only
      split
      · exact h1
      · exact (ih _).mono (fun a ha => ha.trans h1)

theorem only_flush (dbg : Bool) (s : Dec) : Only (DecFault' w dbg) (fun s' => s'.repairs = s.repairs) (s.flush dbg) := by
  unfold Dec.flush
  split
  · exact only_flushLoop dbg _ s
  · exact rfl

theorem only_giveNew (dbg : Bool) (src : DSource) (s : Dec) :
    Only (DecFault' w dbg) (fun s' => s'.repairs = s.repairs) (s.giveNew dbg src) := by
  unfold Dec.giveNew
  split
  · exact rfl
  split
  · exact (only_flush dbg _).mono (fun a ha => ha)
  · exact rfl

theorem only_addSourceHead (gf : GF w) (dbg : Bool) (src : DSource) (s : Dec) (h : InBuffer s.repairs) :
    Only (DecFault' w dbg) (fun s => InBuffer s.repairs) (addSourceHead gf dbg src s) := by
  unfold addSourceHead
  refine (only_giveNew dbg src s).bind fun s1 h1 => ?_
  cases s1.missing.get? src.id with
  | none => show InBuffer s1.repairs; rw [h1]; exact h
  | some l => exact (only_removeFromAll gf dbg src l s1 (by rw [h1]; exact h)).bind fun s2 h2 => h2

theorem only_addSourceTail (dbg : Bool) (src : DSource) (s : Dec) :
    Only (DecFault' w dbg) (fun s' => s'.repairs = s.repairs) (addSourceTail dbg src s) := by
  unfold addSourceTail
  refine (only_assert (P := True) (fun _ => trivial)).bind fun _ _ => ?_
  simp only
  split <;> exact rfl

theorem only_add_scan (gf : GF w) (dbg : Bool) (n : Nat) :
    (∀ src s, InBuffer s.repairs → Only (DecFault' w dbg) (fun s => InBuffer s.repairs) (addSource gf dbg n src s)) ∧
    (∀ k s, InBuffer s.repairs → Only (DecFault' w dbg) (fun s => InBuffer s.repairs) (scanMissing gf dbg n k s)) := by
  induction n with
  | zero =>
    refine ⟨fun src s h => ?_, fun k s h => ?_⟩
    · unfold addSource; exact .inr rfl
    · cases k with
      | none => unfold scanMissing; exact h
      | some k => unfold scanMissing; exact .inr rfl
  | succ n ih =>
    refine ⟨fun src s h => ?_, fun k s h => ?_⟩
    · unfold addSource
      refine (only_addSourceHead gf dbg src s h).bind fun s1 h1 => ?_
      refine (ih.2 _ s1 h1).bind fun s2 h2 => ?_
      exact (only_addSourceTail dbg src s2).mono (fun a ha => by rw [ha]; exact h2)
    · cases k with
      | none => unfold scanMissing; exact h
      | some k =>
        unfold scanMissing
        split
        · exact only_ub trivial
        · split
          · exact only_ub trivial
          · split
            · refine (only_assert (P := True) (fun _ => trivial)).bind fun _ _ => ?_
              refine (only_assert (P := True) (fun _ => trivial)).bind fun _ _ => ?_
              refine (only_createSource gf dbg _).bind fun v _ => ?_
              refine (ih.1 v _ ?_).bind fun s2 h2 => ?_
              · exact inBuffer_erase h _
              · exact ih.2 _ s2 h2
            · exact ih.2 _ s h
        · exact ih.2 _ s h

theorem only_unlinkAll (dbg : Bool) (rid : Nat) (l : List Nat) (m : OMap (List Nat)) :
    Only (DecFault' w dbg) (fun _ => True) (unlinkAll rid l m) := by
  induction l generalizing m with
  | nil => trivial
  | cons x t ih =>
    unfold unlinkAll
    split
    · exact ih _
    · exact only_ub trivial

theorem only_dropRepairs (dbg : Bool) (id : Nat) (l : OMap DRepair) (s : Dec) (h : InBuffer s.repairs) :
    Only (DecFault' w dbg) (fun s => InBuffer s.repairs) (dropRepairs dbg id l s) := by
  induction l generalizing s with
  | nil => exact h
  | cons p t ih =>
    obtain ⟨rid, r⟩ := p
    unfold dropRepairs
    refine (only_assert (P := True) (fun _ => trivial)).bind fun _ _ => ?_
    cases r.ids with
    | nil => exact only_ub trivial
    | cons x u =>
      simp only
      split
      · refine (only_ensure (P := True) (fun _ => by trivial) (fun _ => trivial)).bind fun _ _ => ?_
        refine (only_unlinkAll dbg rid _ _).bind fun m _ => ?_
        exact ih _ (inBuffer_erase h _)
      · exact ih _ h

theorem only_giveOutdated (dbg : Bool) (l : List Nat) (s : Dec) :
    Only (DecFault' w dbg) (fun s' => s'.repairs = s.repairs) (giveOutdated l s) := by
  induction l generalizing s with
  | nil => exact rfl
  | cons x t ih =>
    unfold giveOutdated
    refine (only_callbackOrdered dbg s x).bind fun s1 h1 => ?_
    exact (ih _).mono (fun a ha => ha.trans h1)

theorem only_dropOutdated (dbg : Bool) (id : Nat) (s : Dec) (h : InBuffer s.repairs) :
    Only (DecFault' w dbg) (fun s => InBuffer s.repairs) (s.dropOutdated dbg id) := by
  unfold Dec.dropOutdated
  simp only
  refine (only_dropRepairs dbg id s.repairs { s with lastId := some id } h).bind fun s1 h1 => ?_
  have : Only (DecFault' w dbg) (fun s' => s'.repairs = s1.repairs) (s1.giveAllOutdated dbg id) := by
    unfold Dec.giveAllOutdated
    split
    · refine (only_giveOutdated dbg _ s1).bind fun s2 h2 => ?_
      exact (only_flush dbg _).mono (fun a ha => ha.trans h2)
    · exact rfl
  refine this.bind fun s2 h2 => ?_
  show InBuffer s2.repairs
  rw [h2]; exact h1

theorem only_decodeSym (gf : GF w) (dbg : Bool) (inv : Mat w) (col sz : Nat) (l : List (DRepair × Nat)) (b : Bool) (sym : List Byte)
    (h : sym.length = sz) : Only (DecFault' w dbg) (fun _ => True) (decodeSym gf inv col sz l b sym) := by
  induction l generalizing b sym with
  | nil => trivial
  | cons p t ih =>
    obtain ⟨r, row⟩ := p
    unfold decodeSym
    split
    · exact ih b sym h
    · split
      · refine (only_gfMultiply gf dbg _ _ _).bind fun q hq => ?_
        exact ih _ _ (by simp [hq, h])
      · refine (only_gfMultiplyAdd gf dbg _ _ _ _ (fun _ => by rw [h]; exact Nat.min_le_left _ _)).bind fun q hq => ?_
        exact ih _ _ (hq.trans h)

theorem only_decodeOne (gf : GF w) (dbg : Bool) (inv : Mat w) (reps : List DRepair) (col : Nat) :
    Only (DecFault' w dbg) (fun _ => True) (decodeOne gf dbg inv reps col) := by
  unfold decodeOne
  simp only
  refine (only_assert (P := True) (fun _ => trivial)).bind fun _ _ => ?_
  refine (only_ensure (P := True) (fun _ => by trivial) (fun _ => trivial)).bind fun _ _ => ?_
  exact only_decodeSym gf dbg inv col _ _ _ _ (by simp)

theorem only_insertDecoded (dbg : Bool) (src : DSource) (s : Dec) : Only (DecFault' w dbg) (fun _ => True) (s.insertDecoded dbg src) := by
  unfold Dec.insertDecoded
  refine (only_assert (P := True) (fun _ => trivial)).bind fun _ _ => ?_
  simp only
  split
  · exact only_ub trivial
  · unfold Dec.giveDecoded
    split
    · trivial
    split
    · exact (only_flush dbg _).mono (fun a ha => trivial)
    · trivial

theorem only_decodeLoop (gf : GF w) (dbg : Bool) (inv : Mat w) (reps : List DRepair) (l : List Nat) (col : Nat) (s : Dec) :
    Only (DecFault' w dbg) (fun _ => True) (decodeLoop gf dbg inv reps col l s) := by
  induction l generalizing col s with
  | nil => trivial
  | cons x t ih =>
    unfold decodeLoop
    refine (only_decodeOne gf dbg inv reps col).bind fun sym _ => ?_
    refine (only_insertDecoded dbg _ s).bind fun s1 _ => ?_
    exact ih _ _

theorem only_fullDecode (gf : GF w) (dbg : Bool) (s : Dec) (h : InBuffer s.repairs) :
    Only (DecFault' w dbg) (fun s => InBuffer s.repairs) (s.fullDecode gf dbg) := by
  unfold Dec.fullDecode
  split
  · exact h
  split
  · exact h
  refine (only_assert (P := dbg = true → s.missing.length = s.repairs.length) (fun hb hd => by simpa using hb hd)).bind fun _ he => ?_
  refine (only_assert (P := True) (fun _ => trivial)).bind fun _ _ => ?_
  refine (only_ensure (P := True) (fun hf => ?_) (fun _ => trivial)).bind fun _ _ => ?_
  · show dbg = false
    cases dbg with
    | false => rfl
    | true => simp [he rfl] at hf
  split
  · split
    · exact only_ub trivial
    · refine (only_ensure (P := True) (fun _ => by trivial) (fun _ => trivial)).bind fun _ _ => ?_
      exact inBuffer_erase h _
  · refine (only_decodeLoop gf dbg _ _ _ _ s).bind fun s1 _ => ?_
    intro p hp
    cases hp

theorem only_onSource (gf : GF w) (dbg : Bool) (s : Dec) (src : DSource) (h : InBuffer s.repairs) :
    Only (DecFault' w dbg) (fun s => InBuffer s.repairs) (s.onSource gf dbg src) := by
  unfold Dec.onSource
  split
  · exact h
  split
  · exact h
  refine ((only_add_scan gf dbg _).1 src s h).bind fun s1 h1 => ?_
  exact only_fullDecode gf dbg s1 h1

theorem only_link (gf : GF w) (dbg : Bool) (S : OMap DSource) (l : List Nat) (z : DRepair × OMap (List Nat)) (h : z.1.InBuffer) :
    Only (DecFault' w dbg) (fun z => z.1.InBuffer) (l.foldlM (linkStep gf dbg S) z) := by
  induction l generalizing z with
  | nil => exact h
  | cons x t ih =>
    rw [List.foldlM_cons]
    have : Only (DecFault' w dbg) (fun z => z.1.InBuffer) (linkStep gf dbg S z x) := by
      obtain ⟨r, m⟩ := z
      unfold linkStep
      simp only
      split
      · exact (only_removeData gf dbg _ r h).bind fun r' h' => h'
      · split
        · exact h
        · exact h
    exact this.bind fun z' h' => ih z' h'

theorem only_onRepair (gf : GF w) (dbg : Bool) (s : Dec) (r : DRepair) (h : InBuffer s.repairs) (hr : r.InBuffer) :
    Only (DecFault' w dbg) (fun s => InBuffer s.repairs) (s.onRepair gf dbg r) := by
  unfold Dec.onRepair
  refine (only_assert (P := True) (fun _ => trivial)).bind fun _ _ => ?_
  split
  rotate_left
  · exact only_ub trivial
  split
  · exact h
  split
  · exact h
  refine (only_dropOutdated dbg _ s h).bind fun s1 h1 => ?_
  split
  · exact h1
  refine (only_ensure (P := True) (fun _ => by trivial) (fun _ => trivial)).bind fun _ _ => ?_
  refine (only_link gf dbg _ _ _ hr).bind fun z hz => ?_
  obtain ⟨r', m⟩ := z
  simp only
  refine (only_assert (P := True) (fun _ => trivial)).bind fun _ _ => ?_
  have h2 : InBuffer (s1.repairs.emplace r'.id r') := by
    intro p hp
    rcases mem_emplace' hp with hp | rfl
    · exact h1 p hp
    · exact hz
  split
  · refine (only_createSource gf dbg _).bind fun v _ => ?_
    exact (only_add_scan gf dbg _).1 v _ (inBuffer_erase h2 _)
  · exact only_fullDecode gf dbg _ h2

theorem only_act (gf : GF w) (dbg : Bool) (clk : Clock) (d : NDec) (a : DAct) (h : InBuffer d.det.repairs) :
    Only (DecFault' w dbg) (fun d => InBuffer d.det.repairs) (d.act gf dbg clk a) := by
  cases a with
  | packet p =>
    simp only [NDec.act]
    by_cases hp : p = []
    · subst hp
      unfold NDec.notify
      cases dbg with
      | true => exact .inl rfl
      | false => exact .inl trivial
    by_cases h2 : getPacketType p = .ok .source
    · rw [NDec.notify_of_source gf dbg clk d h2]
      rcases readSource_total p with ⟨s, n, hs, _⟩ | hs
      · rw [hs]
        simp only
        have := only_onSource gf dbg d.det s h
        revert this
        cases ho : d.det.onSource gf dbg s with
        | error e => exact fun h => h
        | ok det' =>
          intro h
          show InBuffer (d.gotSource.afterDet clk det').det.repairs
          have e : (d.gotSource.afterDet clk det').det = det' := afterDet_det (onSource_ext ho).log
          rw [e]
          exact h
      · rw [hs]; exact h
    · by_cases h1 : getPacketType p = .ok .repair
      · rw [NDec.notify_of_repair gf dbg clk d h1]
        rcases readRepair_total p with ⟨r, n, hs, _⟩ | hs
        · rw [hs]
          simp only
          have := only_onRepair gf dbg d.det r h (readRepair_fits hs)
          revert this
          cases ho : d.det.onRepair gf dbg r with
          | error e => exact fun h => h
          | ok det' =>
            intro h
            show InBuffer (d.gotRepair.afterDet clk det').det.repairs
            have e : (d.gotRepair.afterDet clk det').det = det' := afterDet_det (onRepair_ext ho).log
            rw [e]
            exact h
        · rw [hs]; exact h
      · rw [NDec.notify_of_other gf dbg clk d hp h2 h1]
        exact h
  | genAck => exact h
  | maybeAck =>
    show InBuffer (d.maybeAckWith clk d.det.sources.keys).det.repairs
    rw [(maybeAckWith_frame clk d d.det.sources.keys).1]
    exact h
  | setAckNb n =>
    simp only [NDec.act, NDec.setAckNb]
    exact (only_assert (P := True) (fun _ => trivial)).bind fun _ _ => h
  | setAckPeriod ms => exact h

end Netcode
