import Verif.Spec.Depth
import Verif.Proofs.DecAny

/-!
# The nesting of `add_source_recursive` is bounded by the number of repairs
-/

set_option linter.unusedSectionVars false

namespace Netcode

open OMap

variable {w : Nat}

theorem bind_congr_ok {α β : Type} {x y : Out α} {f g : α → Out β} (h1 : NoFuel x → y = x)
    (h2 : ∀ a, x = .ok a → NoFuel (f a) → g a = f a) (h3 : NoFuel (x >>= f)) : (y >>= g) = (x >>= f) := by
  have hx : NoFuel x := by
    intro h; apply h3; rw [h]; rfl
  rw [h1 hx]
  cases x with
  | error e => rfl
  | ok a => exact h2 a rfl h3

theorem nested_eq (gf : GF w) (dbg : Bool) (fuel : Nat) :
    (∀ n src s, s.repairs.length + 1 ≤ n → NoFuel (addSource gf dbg fuel src s) →
      addNested gf dbg n src s = addSource gf dbg fuel src s) ∧
    (∀ n m k s, s.repairs.length ≤ n → (∀ k', k = some k' → after s k' + 1 ≤ m) →
      NoFuel (scanMissing gf dbg fuel k s) →
      scanAtMost gf dbg (addNested gf dbg n) m k s = scanMissing gf dbg fuel k s) := by
  induction fuel with
  | zero =>
    constructor
    · intro n src s _ h; unfold addSource at h; exact absurd rfl h
    · intro n m k s _ _ h
      cases k with
      | none => unfold scanMissing scanAtMost; rfl
      | some k => unfold scanMissing at h; exact absurd rfl h
  | succ fuel ih =>
    constructor
    · intro n src s hn h
      cases n with
      | zero => omega
      | succ n =>
      rw [addSource] at h
      rw [addSource, addNested]
      refine bind_congr_ok (fun _ => rfl) (fun s1 h1 => bind_congr_ok (fun h2 => ?_) (fun _ _ _ => rfl)) h
      have l1 := (addSourceHead_uses h1).len
      exact ih.2 _ _ _ _ (by omega) (fun k' hk => after_head hk) h2
    · intro n m k s hn hm h
      cases k with
      | none => unfold scanMissing scanAtMost; rfl
      | some k =>
        have hk := hm k rfl
        cases m with
        | zero => omega
        | succ m =>
        have hnext : ∀ k', s.missing.next? k = some k' → after s k' + 1 ≤ m := by
          intro k' h'
          have := after_next h'
          unfold after at hk ⊢
          omega
        rw [scanMissing] at h
        rw [scanMissing, scanAtMost]
        cases hmm : s.missing.get? k with
        | none => rfl
        | some l =>
          rw [hmm] at h
          rcases l with _ | ⟨rid, _ | ⟨rid2, t⟩⟩
          · exact ih.2 _ _ _ _ hn hnext h
          · simp only at h ⊢
            cases hr : s.repairs.get? rid with
            | none => rfl
            | some r =>
              rw [hr] at h
              simp only at h ⊢
              split
              · rename_i hl
                rw [if_pos hl] at h
                refine bind_congr_ok (fun _ => rfl) (fun _ _ => bind_congr_ok (fun _ => rfl) (fun _ _ =>
                  bind_congr_ok (fun _ => rfl) (fun src _ => bind_congr_ok (ih.1 _ _ _ ?_) (fun s1 h1 =>
                    ih.2 _ _ _ _ ?_ ?_)))) h
                · have := length_erase_lt hr
                  simp only
                  omega
                · have u1 := ((add_scan_uses gf dbg fuel).1 _ _ _ h1).len
                  have := length_erase_lt hr
                  simp only at u1
                  omega
                · intro k' hk'
                  have u1 := ((add_scan_uses gf dbg fuel).1 _ _ _ h1).mis rfl
                  simp only at u1
                  have a1 := after_next hk'
                  have a2 := after_sub u1 k'
                  have a3 := after_sub (keys_erase_sublist s.missing k) k
                  unfold after at hk ⊢
                  omega
              · rename_i hl
                rw [if_neg hl] at h
                exact ih.2 _ _ _ _ hn hnext h
          · exact ih.2 _ _ _ _ hn hnext h

theorem addNested_eq (gf : GF w) (dbg : Bool) (src : DSource) (s : Dec) :
    addNested gf dbg (s.repairs.length + 1) src s = addSource gf dbg s.fuel src s :=
  (nested_eq gf dbg s.fuel).1 _ _ _ (Nat.le_refl _) (noFuel_addSource _ _ _ _)

end Netcode
