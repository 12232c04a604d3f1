import Verif.Proofs.DecHist
import Verif.Spec.Late

/-!
# The list of the next ack
-/

namespace Netcode

variable {w : Nat}

theorem step_counts {c : Cfg w} {s s' : Sys} {a : Act} (h : Counts s.dec) (hst : s.step c a = .ok s') : Counts s'.dec := by
  cases a with
  | deliver i =>
    simp only [Sys.step] at hst
    split at hst
    · cases hst; exact h
    · simp only [bind_ok_iff, pure_ok_iff] at hst
      obtain ⟨⟨d, r⟩, h1, rfl⟩ := hst
      exact counts_act (gf := c.gf) (dbg := c.dbg) (clk := c.clk) (a := .packet _) h (map_ok_iff.2 ⟨(d, r), h1, rfl⟩)
  | ack j =>
    simp only [Sys.step] at hst
    split at hst
    · cases hst; exact h
    · simp only [bind_ok_iff, pure_ok_iff] at hst
      obtain ⟨_, _, rfl⟩ := hst
      exact h
  | genAck => cases hst; exact counts_act (gf := c.gf) (dbg := c.dbg) (clk := c.clk) (a := .genAck) h rfl
  | maybeAck => cases hst; exact counts_act (gf := c.gf) (dbg := c.dbg) (clk := c.clk) (a := .maybeAck) h rfl
  | setAckPeriod n => cases hst; exact counts_act (gf := c.gf) (dbg := c.dbg) (clk := c.clk) (a := .setAckPeriod n) h rfl
  | setAckNb n =>
    simp only [Sys.step, bind_ok_iff, pure_ok_iff] at hst
    obtain ⟨d, h1, rfl⟩ := hst
    exact counts_act (gf := c.gf) (dbg := c.dbg) (clk := c.clk) (a := .setAckNb n) h h1
  | commit d =>
    simp only [Sys.step, bind_ok_iff, pure_ok_iff] at hst
    obtain ⟨_, _, rfl⟩ := hst
    exact h
  | repair =>
    simp only [Sys.step, bind_ok_iff, pure_ok_iff] at hst
    obtain ⟨_, _, rfl⟩ := hst
    exact h
  | setRate n =>
    simp only [Sys.step, bind_ok_iff, pure_ok_iff] at hst
    obtain ⟨_, _, rfl⟩ := hst
    exact h
  | setWindow n =>
    simp only [Sys.step, bind_ok_iff, pure_ok_iff] at hst
    obtain ⟨_, _, rfl⟩ := hst
    exact h
  | setAdaptive b => cases hst; exact h
  | setSystematic b => cases hst; exact h

theorem reach_counts {c : Cfg w} {io : Bool} {s : Sys} (h : Reach c io s) : Counts s.dec := by
  induction h with
  | init => exact counts_init _ _
  | step _ _ hst ih => exact step_counts ih hst

theorem reachLate_counts {c : Cfg w} {io : Bool} {s : Sys} (h : ReachLate c io s) : Counts s.dec := by
  induction h with
  | init => exact counts_init _ _
  | step _ _ hst ih => exact step_counts ih hst

/-- What the next ack lists is not forgotten before it is sent. -/
structure KeptIds (d d' : NDec) : Prop where
  out : d.out <+: d'.out
  ids : ∀ x ∈ d.ackIds, x ∈ d'.ackIds ∨ ∃ a ∈ d'.out, x ∈ a.ids

theorem KeptIds.same {d d' : NDec} (h1 : d'.out = d.out) (h2 : d'.ackIds = d.ackIds) : KeptIds d d' :=
  ⟨by rw [h1], fun _ hx => .inl (by rw [h2]; exact hx)⟩

theorem KeptIds.trans {a b c : NDec} (h : KeptIds a b) (g : KeptIds b c) : KeptIds a c := by
  refine ⟨h.out.trans g.out, fun x hx => ?_⟩
  rcases h.ids x hx with hx | ⟨k, hk, hx⟩
  · exact g.ids x hx
  · exact .inr ⟨k, g.out.subset hk, hx⟩

theorem generateAckWith_kept (d : NDec) (held : List Nat) : KeptIds d (d.generateAckWith held) :=
  ⟨List.prefix_append _ _, fun x hx => .inr ⟨_, List.mem_append_right _ (List.mem_singleton.2 rfl),
    (foldl_setInsert_mem _ _ _).2 (.inl hx)⟩⟩

theorem maybeAckWith_kept (clk : Clock) (d : NDec) (held : List Nat) : KeptIds d (d.maybeAckWith clk held) := by
  unfold NDec.maybeAckWith
  split
  · exact KeptIds.trans (generateAckWith_kept d held) (KeptIds.same rfl rfl)
  · split
    · simp only
      split
      · exact (KeptIds.same (d := d) (d' := { d with ticks := d.ticks + 1 }) rfl rfl).trans
          (KeptIds.trans (generateAckWith_kept { d with ticks := d.ticks + 1 } held)
            (KeptIds.same (d' := { ({ d with ticks := d.ticks + 1 } : NDec).generateAckWith held with lastAck := clk d.ticks }) rfl rfl))
      · exact .same rfl rfl
    · exact .same rfl rfl

theorem afterDet_kept (clk : Clock) (d : NDec) (det' : Dec) : KeptIds d (d.afterDet clk det') := by
  have fold : ∀ (evs : List Event) (d : NDec), KeptIds d (evs.foldl (NDec.handleSource clk) d) := by
    intro evs
    induction evs with
    | nil => exact fun d => .same rfl rfl
    | cons ev t ih =>
      intro d
      rw [List.foldl_cons]
      exact ((KeptIds.same (d := d) (d' := { d with data := d.data ++ [ev.data] }) rfl rfl).trans (maybeAckWith_kept clk _ ev.held)).trans (ih _)
  exact (KeptIds.same (d := d) (d' := { d with det := det' }) rfl rfl).trans (fold _ _)

theorem notify_kept {gf : GF w} {dbg : Bool} {clk : Clock} {d d' : NDec} {p : List Byte} {r : Except CppErr Nat}
    (h : d.notify gf dbg clk p = .ok (d', r)) : KeptIds d d' := by
  cases notify_got h with
  | other => exact .same rfl rfl
  | badSource => exact .same rfl rfl
  | badRepair => exact .same rfl rfl
  | source s n det' _ _ ho => exact (KeptIds.same (d := d) (d' := d.gotSource) rfl rfl).trans (afterDet_kept clk d.gotSource det')
  | repair s n det' _ _ ho => exact (KeptIds.same (d := d) (d' := d.gotRepair) rfl rfl).trans (afterDet_kept clk d.gotRepair det')

/-- The ids of the next ack before a packet are among those acknowledged or to be acknowledged after it. -/
theorem AckInv.before {K : Set Nat} {d d' : NDec} (h : AckInv K d') (g : KeptIds d d') (hs : Sorted d.ackIds) (hp : d.ackPackets < 2 ^ 16) :
    AckInv K d := by
  refine ⟨hs, fun x hx => ?_, hp, fun a ha => h.out a (g.out.subset ha)⟩
  rcases g.ids x hx with hx | ⟨a, ha, hx⟩
  · exact h.ids x hx
  · exact (h.out a ha).2.1 x hx

end Netcode
