import Verif.Spec.Schedule

/-!
# Late sources

The schedules of `Verif/Spec/Schedule.lean` with one limit less: a source may be overtaken by a repair with ordering
as well.
-/

namespace Netcode

variable {w : Nat}

/-- The `i`-th packet of the encoder, a source, arrived before, or at most one repair emitted after it has arrived, or its
arrival is no clash. -/
def Sys.InTimeLate (s : Sys) (gf : GF w) (i : Nat) : Prop :=
  i ∈ s.hist ∨ (∃ j₀, ∀ j ∈ s.hist, i < j → s.isRepair j → j = j₀) ∨
    ∀ sr, s.enc.out[i]? = some (.source sr) → s.dec.det.NoClash gf sr.id

/-- `Allowed`, but for the sources. -/
def AllowedLate (c : Cfg w) (s : Sys) : Act → Prop
  | .deliver i =>
    match s.enc.out[i]? with
    | some (.source _) => s.InTimeLate c.gf i
    | _ => Allowed c s (.deliver i)
  | a => Allowed c s a

/-- The states that these calls and arrivals reach from a new encoder and a new decoder. -/
inductive ReachLate (c : Cfg w) (inOrder : Bool) : Sys → Prop
  | init : ReachLate c inOrder (Sys.init c.clk inOrder)
  | step {s s' : Sys} {a : Act} : ReachLate c inOrder s → AllowedLate c s a → s.step c a = .ok s' →
      ReachLate c inOrder s'

/-! Both kinds of schedules at once: `late` says whether sources may be late with ordering. -/

/-- A source arrives early enough. -/
def Sys.Timely (s : Sys) (late : Bool) (gf : GF w) (i : Nat) : Prop :=
  match late with
  | false => s.InTime gf i
  | true => s.InTimeLate gf i

/-- The calls and arrivals considered. -/
def Permits (c : Cfg w) (late : Bool) (s : Sys) (a : Act) : Prop :=
  match late with
  | false => Allowed c s a
  | true => AllowedLate c s a

/-- The states reached. -/
def Reaches (c : Cfg w) (late inOrder : Bool) (s : Sys) : Prop :=
  match late with
  | false => Reach c inOrder s
  | true => ReachLate c inOrder s

end Netcode
