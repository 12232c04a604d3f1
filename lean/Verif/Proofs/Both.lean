import Verif.Proofs.Late
import Verif.Proofs.Trail

/-!
# Both kinds of schedules at once
-/

namespace Netcode

variable {w : Nat}

/-- The invariant of either mode, when sources may be late. -/
def GInv [Fact (0 < w)] (c : Cfg w) (io : Bool) (data : Nat → List Byte) (m : Sys) : Prop :=
  match io with
  | false => ∃ ems A ρ L W K, SysInv c false data ems A ρ L W K m
  | true => ∃ ems A ρ L W K u, LateInv c data ems A ρ L W K m u

section
variable [Fact (0 < w)] {c : Cfg w} {io : Bool} {data : Nat → List Byte} {m : Sys}

/-- The encoder and the acks are those of a system without ordering. -/
theorem GInv.view (h : GInv c io data m) : ∃ u ems A ρ L W K, SysInv c false data ems A ρ L W K (m.hyb u) := by
  cases io with
  | false =>
    obtain ⟨ems, A, ρ, L, W, K, h⟩ := h
    exact ⟨m.dec.det, ems, A, ρ, L, W, K, by rw [hyb_self m h.dataLog]; exact h⟩
  | true =>
    obtain ⟨ems, A, ρ, L, W, K, u, h⟩ := h
    exact ⟨u, ems, A, ρ, L, W, K, h.inv⟩

theorem GInv.errs (h : GInv c io data m) : m.errs = 0 := by
  obtain ⟨u, ems, A, ρ, L, W, K, h⟩ := h.view
  exact h.errs

theorem GInv.step (hc : c.Ok) (h : GInv c io data m) (hag : Agree data m.committed) (a : Act) (ha : AllowedLate c m a)
    (hd : ∀ d, a = .commit d → data m.committed.length = d) : ∃ m', m.step c a = .ok m' ∧ GInv c io data m' := by
  cases io with
  | false =>
    obtain ⟨ems, A, ρ, L, W, K, h⟩ := h
    obtain ⟨s2, new, A', ρ', L', W', K', h1, h2, _⟩ := h.step hc hag a (allowed_of_late h.io ha) hd
    exact ⟨s2, h1, _, _, _, _, _, _, h2⟩
  | true =>
    obtain ⟨ems, A, ρ, L, W, K, u, h⟩ := h
    obtain ⟨s2, u', new, A', ρ', L', W', K', h1, h2, _⟩ := h.step hc hag a ha hd
    exact ⟨s2, h1, _, _, _, _, _, _, _, h2⟩

/-- A repair given as other bytes that are read as the repair. -/
theorem GInv.repairVia (hc : c.Ok) (h : GInv c io data m) (hag : Agree data m.committed) {i : Nat} {r : ERepair}
    (hi : m.enc.out[i]? = some (.repair r)) (ha : AllowedLate c m (.deliver i)) (q tail : List Byte) (n : Nat) (hq : q ≠ [])
    (hqt : getPacketType q = .ok .repair)
    (hqr : r.id < 2 ^ 32 → r.sym.length < 2 ^ 16 → readRepair q = .ok (⟨r.id, r.ids, r.encSize, r.sym ++ tail, r.sym.length⟩, n)) :
    ∃ s', ((do
      let (d, x) ← m.dec.notify c.gf c.dbg c.clk q
      return { m with dec := d, hist := m.hist ++ [i], errs := m.errs + errCount x } : Out Sys) = .ok s') ∧ GInv c io data s' := by
  simp only [AllowedLate, hi, Allowed] at ha
  cases io with
  | false =>
    obtain ⟨ems, A, ρ, L, W, K, h⟩ := h
    obtain ⟨s', ρ', L', W', K', h1, h2, -⟩ := h.mayArriveVia hc hag.getD hi ha.1 ha.2.1 ha.2.2 q tail n hq hqt hqr
    exact ⟨s', h1, _, _, _, _, _, _, h2⟩
  | true =>
    obtain ⟨ems, A, ρ, L, W, K, u, h⟩ := h
    obtain ⟨s1, ρ', L', W', K', h1, h2, _, _, _, _, h5, h6, _⟩ := h.inv.mayArriveVia hc hag.getD hi (h.mayArrive ha.1) ha.2.1 ha.2.2 q tail n hq hqt hqr
    obtain ⟨s2, g1, g2, g3⟩ := h.deliverVia q h1 h2 h6 h5
    exact ⟨s2, g1, _, _, _, _, _, _, _, g2⟩

theorem ginv_of_late (hc : c.Ok) (h : ReachLate c io m) : ∀ data, Agree data m.committed → GInv c io data m := by
  intro data hag
  cases io with
  | false => exact reach_inv hc (reach_of_late hc h) data hag
  | true => exact lateReach_inv hc h data hag

end

section
variable {c : Cfg w} {late io : Bool} {s : Sys}

theorem Permits.toLate {a : Act} (h : Permits c late s a) : AllowedLate c s a := by
  cases late with
  | false => exact late_of_allowed h
  | true => exact h

theorem Reaches.toLate (h : Reaches c late io s) : ReachLate c io s := by
  cases late with
  | false => exact late_of_reach h
  | true => exact h

theorem Reaches.init : Reaches c late io (Sys.init c.clk io) := by
  cases late with
  | false => exact Reach.init
  | true => exact ReachLate.init

theorem Reaches.step {s' : Sys} {a : Act} (h : Reaches c late io s) (ha : Permits c late s a) (hst : s.step c a = .ok s') :
    Reaches c late io s' := by
  cases late with
  | false => exact Reach.step h ha hst
  | true => exact ReachLate.step h ha hst

/-- Steps that are not arrivals of packets. -/
theorem permits_other {a : Act} (h : Allowed c s a) : Permits c late s a := by
  cases late with
  | false => exact h
  | true => exact late_of_allowed h

theorem timely_withR {gf : GF w} {R : OMap DRepair} {i : Nat} (hR : keyIds R = keyIds s.dec.det.repairs) :
    { s with dec := s.dec.withR R }.Timely late gf i ↔ s.Timely late gf i := by
  cases late with
  | false => exact inTime_withR hR
  | true =>
    have hN : ∀ x, (s.dec.withR R).det.NoClash gf x ↔ s.dec.det.NoClash gf x := fun x => noClash_congr hR rfl
    simp only [Sys.Timely, Sys.InTimeLate, hN]
    exact Iff.rfl

theorem permits_withR {R : OMap DRepair} {a : Act} (hR : keyIds R = keyIds s.dec.det.repairs) :
    Permits c late { s with dec := s.dec.withR R } a ↔ Permits c late s a := by
  cases late with
  | false => exact allowed_withR hR
  | true =>
    cases a with
    | deliver i =>
      cases hi : s.enc.out[i]? with
      | none => simp only [Permits, AllowedLate, Allowed, hi]
      | some p =>
        cases p with
        | repair r =>
          simp only [Permits, AllowedLate, Allowed, hi]
          exact and_congr (mayArrive_withR hR) Iff.rfl
        | source sr =>
          simp only [Permits, AllowedLate, hi]
          exact timely_withR (late := true) hR
    | _ => exact Iff.rfl

end

end Netcode
