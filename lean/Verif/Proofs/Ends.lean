import Verif.Spec.Ends
import Verif.Proofs.DecHist

/-! # A run of the system is a run of each end -/

namespace Netcode

variable {w : Nat} {c : Cfg w}

theorem step_ends (s : Sys) (a : Act) :
    (∀ s', s.step c a = .ok s' → s.enc.after c.gf c.F c.dbg (a.encCall s) = .ok s'.enc ∧
      s.dec.after c.gf c.dbg c.clk (a.decCall s) = .ok s'.dec ∧ s'.committed = s.committed ++ committedBy [a]) ∧
    (∀ f, s.step c a = .error f → s.enc.after c.gf c.F c.dbg (a.encCall s) = .error f ∨
      s.dec.after c.gf c.dbg c.clk (a.decCall s) = .error f) := by
  have one : ∀ {α β : Type} (f : α → β → Out α) (x : α) (b : β), [b].foldlM f x = f x b := by
    intro α β f x b
    simp [List.foldlM_cons]
  have nil : ∀ {α β : Type} (f : α → β → Out α) (x : α), ([] : List β).foldlM f x = .ok x := fun _ _ => rfl
  cases a with
  | commit d =>
    simp only [Sys.step, Act.encCall, Act.decCall, Enc.after, NDec.after, one, nil, Enc.act, committedBy]
    cases s.enc.commit c.gf c.dbg d with
    | error f => exact ⟨fun s' e => (by cases e), fun g e => .inl (by cases e; rfl)⟩
    | ok e1 => exact ⟨fun s' e => by cases e; exact ⟨rfl, rfl, rfl⟩, fun g e => (by cases e)⟩
  | repair =>
    simp only [Sys.step, Act.encCall, Act.decCall, Enc.after, NDec.after, one, nil, Enc.act, committedBy]
    cases s.enc.generateRepair c.gf c.dbg with
    | error f => exact ⟨fun s' e => (by cases e), fun g e => .inl (by cases e; rfl)⟩
    | ok e1 => exact ⟨fun s' e => by cases e; exact ⟨rfl, rfl, by simp⟩, fun g e => (by cases e)⟩
  | setRate n =>
    simp only [Sys.step, Act.encCall, Act.decCall, Enc.after, NDec.after, one, nil, Enc.act, committedBy]
    cases s.enc.setRate c.dbg n with
    | error f => exact ⟨fun s' e => (by cases e), fun g e => .inl (by cases e; rfl)⟩
    | ok e1 => exact ⟨fun s' e => by cases e; exact ⟨rfl, rfl, by simp⟩, fun g e => (by cases e)⟩
  | setWindow n =>
    simp only [Sys.step, Act.encCall, Act.decCall, Enc.after, NDec.after, one, nil, Enc.act, committedBy]
    cases s.enc.setWindowSize c.dbg n with
    | error f => exact ⟨fun s' e => (by cases e), fun g e => .inl (by cases e; rfl)⟩
    | ok e1 => exact ⟨fun s' e => by cases e; exact ⟨rfl, rfl, by simp⟩, fun g e => (by cases e)⟩
  | setAdaptive b =>
    simp only [Sys.step, Act.encCall, Act.decCall, Enc.after, NDec.after, one, nil, Enc.act, committedBy]
    exact ⟨fun s' e => by cases e; exact ⟨rfl, rfl, by simp⟩, fun g e => (by cases e)⟩
  | setSystematic b =>
    simp only [Sys.step, Act.encCall, Act.decCall, Enc.after, NDec.after, one, nil, Enc.act, committedBy]
    exact ⟨fun s' e => by cases e; exact ⟨rfl, rfl, by simp⟩, fun g e => (by cases e)⟩
  | genAck =>
    simp only [Sys.step, Act.encCall, Act.decCall, Enc.after, NDec.after, one, nil, NDec.act, committedBy]
    exact ⟨fun s' e => by cases e; exact ⟨rfl, rfl, by simp⟩, fun g e => (by cases e)⟩
  | maybeAck =>
    simp only [Sys.step, Act.encCall, Act.decCall, Enc.after, NDec.after, one, nil, NDec.act, committedBy]
    exact ⟨fun s' e => by cases e; exact ⟨rfl, rfl, by simp⟩, fun g e => (by cases e)⟩
  | setAckPeriod ms =>
    simp only [Sys.step, Act.encCall, Act.decCall, Enc.after, NDec.after, one, nil, NDec.act, committedBy]
    exact ⟨fun s' e => by cases e; exact ⟨rfl, rfl, by simp⟩, fun g e => (by cases e)⟩
  | setAckNb n =>
    simp only [Sys.step, Act.encCall, Act.decCall, Enc.after, NDec.after, one, nil, NDec.act, committedBy]
    cases s.dec.setAckNb c.dbg n with
    | error f => exact ⟨fun s' e => (by cases e), fun g e => .inr (by cases e; rfl)⟩
    | ok e1 => exact ⟨fun s' e => by cases e; exact ⟨rfl, rfl, by simp⟩, fun g e => (by cases e)⟩
  | deliver i =>
    simp only [Sys.step, Act.encCall, Act.decCall, committedBy]
    cases s.enc.out[i]? with
    | none => exact ⟨fun s' e => by cases e; exact ⟨rfl, rfl, by simp⟩, fun g e => (by cases e)⟩
    | some p =>
      simp only [Option.toList_some, List.map_cons, List.map_nil, Enc.after, NDec.after, one, nil, NDec.act]
      cases s.dec.notify c.gf c.dbg c.clk p.bytes with
      | error f => exact ⟨fun s' e => (by cases e), fun g e => .inr (by cases e; rfl)⟩
      | ok x => exact ⟨fun s' e => by cases e; exact ⟨rfl, rfl, by simp⟩, fun g e => (by cases e)⟩
  | ack j =>
    simp only [Sys.step, Act.encCall, Act.decCall, committedBy]
    cases s.dec.out[j]? with
    | none => exact ⟨fun s' e => by cases e; exact ⟨rfl, rfl, by simp⟩, fun g e => (by cases e)⟩
    | some p =>
      simp only [Option.toList_some, List.map_cons, List.map_nil, Enc.after, NDec.after, one, nil, Enc.act]
      cases s.enc.notify c.F c.dbg (writeAck p).flatten with
      | error f => exact ⟨fun s' e => (by cases e), fun g e => .inl (by cases e; rfl)⟩
      | ok x => exact ⟨fun s' e => by cases e; exact ⟨rfl, rfl, by simp⟩, fun g e => (by cases e)⟩

theorem run_ends (acts : List Act) : ∀ s : Sys,
    (∀ s', s.run c acts = .ok s' → s.enc.after c.gf c.F c.dbg (encCalls c s acts) = .ok s'.enc ∧
      s.dec.after c.gf c.dbg c.clk (decCalls c s acts) = .ok s'.dec ∧ s'.committed = s.committed ++ committedBy acts) ∧
    (∀ f, s.run c acts = .error f → s.enc.after c.gf c.F c.dbg (encCalls c s acts) = .error f ∨
      s.dec.after c.gf c.dbg c.clk (decCalls c s acts) = .error f) := by
  induction acts with
  | nil => exact fun s => ⟨fun s' e => by cases e; exact ⟨rfl, rfl, by simp [committedBy]⟩, fun f e => (by cases e)⟩
  | cons a t ih =>
    intro s
    obtain ⟨g1, g2⟩ := step_ends (c := c) s a
    simp only [Sys.run, List.foldlM_cons, encCalls, decCalls]
    cases hs : s.step c a with
    | error f =>
      refine ⟨fun s' e => (by cases e), fun g e => ?_⟩
      cases e
      simpa using g2 f hs
    | ok s1 =>
      obtain ⟨k1, k2, k3⟩ := g1 s1 hs
      obtain ⟨i1, i2⟩ := ih s1
      have ea : s.enc.after c.gf c.F c.dbg (a.encCall s ++ encCalls c s1 t) = s1.enc.after c.gf c.F c.dbg (encCalls c s1 t) := by
        simp only [Enc.after, List.foldlM_append] at k1 ⊢
        rw [k1]; rfl
      have da : s.dec.after c.gf c.dbg c.clk (a.decCall s ++ decCalls c s1 t) = s1.dec.after c.gf c.dbg c.clk (decCalls c s1 t) := by
        simp only [NDec.after, List.foldlM_append] at k2 ⊢
        rw [k2]; rfl
      simp only [ea, da]
      refine ⟨fun s' e => ?_, fun f e => i2 f e⟩
      obtain ⟨j1, j2, j3⟩ := i1 s' e
      refine ⟨j1, j2, ?_⟩
      rw [j3, k3, List.append_assoc, ← show committedBy ([a] ++ t) = committedBy [a] ++ committedBy t from List.filterMap_append]
      rfl

end Netcode
