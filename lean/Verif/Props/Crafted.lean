import Verif.Props.Hostile
import Verif.Proofs.Crafted

/-!
# C07: which crafted repairs do harm
-/

namespace Netcode

variable {w : Nat}

/-- **C07**, repairs: on a decoder that holds no repairs (it was given any bytes, but of whole repair packets only such that at most
one of their sources was new to it), a whole repair packet, be it crafted, is handled without a fault exactly if it is harmless: it
lists sources, and unless it brings nothing new, the sources it lists that the decoder holds are not longer than its symbol (in a
release build: than the rest of the packet) and whole numbers of elements of the field, and the size it gives to its last unknown
source, if there is just one, is not more than the rest of the packet.
Missing: decoders that hold repairs. -/
theorem C07_crafted_iff_partial (gf : GF w) (dbg : Bool) (clk : Clock) (io : Bool) (d : NDec) (h : AtOnce gf dbg clk io d)
    (p : List Byte) (r : DRepair) (n : Nat) (hp : p.head? = some 1#8) (hr : readRepair p = .ok (r, n)) :
    (∃ d', d.act gf dbg clk (.packet p) = .ok d') ↔ r.Harmless gf dbg d.det.lastId d.det.sources :=
  (act_repair_idle gf dbg clk d (atOnce_idle h) hp hr).1

/-- **C07**, everything else: on such a decoder no other call fails, whatever the bytes. Generalises `C07_sources_safe_partial`. -/
theorem C07_at_once_safe_partial (gf : GF w) (dbg : Bool) (clk : Clock) (io : Bool) (d : NDec) (h : AtOnce gf dbg clk io d) (a : DAct)
    (ha : a.NoRepair) : ∃ d', d.act gf dbg clk a = .ok d' ∧ AtOnce gf dbg clk io d' := by
  have hr : ∀ p, a = .packet p → p.head? = some 1#8 → readRepair p = .error (.cpp .overflow) := by
    rintro p rfl; exact ha.2
  obtain ⟨d', hd⟩ := (act_idle gf dbg clk d a (atOnce_idle h) hr).2 (by rintro p rfl; exact ha.1) (by rintro n rfl; exact ha)
  exact ⟨d', hd, .other h hr hd⟩

/-- A source of one byte; a repair of sources 0 and 1, made up: its symbol has one byte, but according to its encoded size source 1
has 12. -/
def oneSource : List Byte := [2, 0, 0, 0, 0, 0, 1, 5]
def madeUp : List Byte := [1, 0, 0, 0, 9, 0, 1, 7, 0, 2, 0, 0, 0, 0, 1, 0, 1, 0, 121]

/-- The made-up repair is harmless by the definition above, although what comes out is not even in its symbol: the data given to the
application are made of the bytes of its list of sources and of its encoded size. -/
example (dbg io : Bool) :
    ((NDec.init (fun _ => 0) io).after gf8 dbg (fun _ => 0) [.packet oneSource, .packet madeUp]).toOption.map (·.data) =
      some [[5], [97, 0, 238, 0, 0, 0, 0, 119, 0, 119, 0, 1]] := by
  revert dbg io; decide +kernel

/-- A decoder that took the made-up repair, and then gets the packets of the theorems above: they are not harmless. -/
example (dbg : Bool) : ∃ d, AtOnce gf8 dbg (fun _ => 0) true d ∧ d.data.length = 2 ∧
    (∃ r n, readRepair madeUp = .ok (r, n) ∧ r.Harmless gf8 dbg none [(0, ⟨0, [5]⟩)] ∧ r.ids = [0, 1]) := by
  have key : ∃ d0 d1, (NDec.init (fun _ => 0) true).act gf8 dbg (fun _ => 0) (.packet oneSource) = .ok d0 ∧
      d0.det.lastId = none ∧ d0.det.sources = [(0, ⟨0, [5]⟩)] ∧
      d0.act gf8 dbg (fun _ => 0) (.packet madeUp) = .ok d1 ∧ d1.data.length = 2 := by
    have hv : ((NDec.init (fun _ => 0) true).act gf8 dbg (fun _ => 0) (.packet oneSource)).toOption.any (fun d0 =>
        decide (d0.det.lastId = none ∧ d0.det.sources = [(0, ⟨0, [5]⟩)]) &&
          (d0.act gf8 dbg (fun _ => 0) (.packet madeUp)).toOption.any (fun d1 => d1.data.length == 2)) = true := by
      revert dbg; decide +kernel
    revert hv
    cases (NDec.init (fun _ => 0) true).act gf8 dbg (fun _ => 0) (.packet oneSource) with
    | error e => intro hv; cases hv
    | ok d0 =>
      intro hv
      simp only [Except.toOption, Option.any_some, Bool.and_eq_true, decide_eq_true_eq] at hv
      obtain ⟨hv, h2⟩ := hv
      revert h2
      cases h1 : d0.act gf8 dbg (fun _ => 0) (.packet madeUp) with
      | error e => intro h2; cases h2
      | ok d1 =>
        intro h2
        exact ⟨d0, d1, rfl, hv.1, hv.2, h1, by simpa [Except.toOption] using h2⟩
  obtain ⟨d0, d1, h0, hl, hs, h1, hlen⟩ := key
  have c0 : AtOnce gf8 dbg (fun _ => 0) true d0 := .other .init (by rintro p hp; cases hp; decide) h0
  have hr : readRepair madeUp = .ok (⟨9, [0, 1], 121#16, [7, 0, 2, 0, 0, 0, 0, 1, 0, 1, 0, 121], 1⟩, 19) := by decide +kernel
  have hh := (C07_crafted_iff_partial gf8 dbg _ true d0 c0 madeUp _ _ rfl hr).1 ⟨d1, h1⟩
  refine ⟨d1, .repair c0 rfl hr (by rw [hs]; decide) h1, hlen, _, _, hr, ?_, rfl⟩
  rw [hl, hs] at hh
  exact hh

/-- The repairs of `C07_false_read` and `C07_false_empty` are not harmless. -/
example (dbg : Bool) : ¬ DRepair.Harmless gf8 dbg none [] ⟨0, [0], 65535#16, [7, 0, 1, 0, 0, 0, 0, 255, 255], 1⟩ ∧
    ¬ DRepair.Harmless gf8 dbg none [] ⟨0, [], 0#16, [0, 0, 0, 0], 0⟩ := by
  refine ⟨?_, fun h => h.1 rfl⟩
  rintro ⟨-, ⟨l, h, -⟩ | h | ⟨-, h⟩⟩
  · cases h
  · revert h; decide
  · have := (h 0 rfl).1
    revert this
    decide +kernel

end Netcode
