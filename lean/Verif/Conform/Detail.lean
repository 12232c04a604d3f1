import Verif.Model.Decoder
import Verif.Model.Encoder
import Verif.Proofs.GFConcrete

/-!
# The unit tests of the project, run on the model: tests/netcode/detail

These are tests and not proofs: they show that on the inputs of the test suite of /repo the model gives the results that the
suite requires of the code.  Each definition is one test case; sections are separate definitions.  All are run for
the four sizes of the field (tests/netcode/launch.hh) and with assertions compiled in and left out.
-/

namespace Netcode.Conform

variable {w : Nat}

/-- A test passes. -/
def passes (t : Out Bool) : Bool :=
  match t with
  | .ok b => b
  | .error _ => false

/-- `launch` (tests/netcode/launch.hh:20-26), for both kinds of build. -/
def launch (t : ∀ {w : Nat}, GF w → Bool → Out Bool) : Bool :=
  [true, false].all fun dbg => passes (t gf4 dbg) && passes (t gf8 dbg) && passes (t gf16 dbg) && passes (t gf32 dbg)

/-- Text. -/
def str (s : String) : List Byte := s.toList.map (fun c => BitVec.ofNat 8 c.toNat)

/-- `mk_decoder_repair` (tests/netcode/common.hh:17-23). -/
def mkRepair (r : ERepair) : DRepair := { id := r.id, ids := r.ids, encSize := r.encSize, buf := r.sym, symSize := r.sym.length }

/-- A list of sources. -/
def mkList (l : List (Nat × String)) : List ESource := l.map (fun p => { id := p.1, sym := str p.2 })

/-- A source as a decoder receives it. -/
def src (id : Nat) (s : String) : DSource := { id := id, sym := str s }

/-- What the tests look at: the identifiers of the sources, of the missing sources and of the repairs. -/
def seen (s : Dec) : List Nat × List Nat × List Nat := (s.sources.keys, s.missing.keys, s.repairs.keys)

/-! ## test_decoder.cc -/

/-- "Decoder: reconstruct a source from a repair" (17-41) -/
def reconstruct (gf : GF w) (dbg : Bool) : Out Bool := do
  let r ← encodeRepair gf dbg 0 (mkList [(0, "abcd")])
  let s ← createSource gf dbg (mkRepair r)
  return s.sym = str "abcd"

/-- "Decoder: remove a source from a repair" (45-97) -/
def removeOne (gf : GF w) (dbg : Bool) : Out Bool := do
  let r ← encodeRepair gf dbg 0 (mkList [(0, "abcd"), (1, "efghijkl")])
  let r0 ← removeFromRepair gf dbg (src 0 "abcd") (mkRepair r)
  let s1 ← createSource gf dbg r0
  let r1 ← removeFromRepair gf dbg (src 1 "efghijkl") (mkRepair r)
  let s0 ← createSource gf dbg r1
  return r0.ids = [1] && s1.sym = str "efghijkl" && r1.ids = [0] && s0.sym = str "abcd"

/-- Five empty sources. -/
def five : List ESource := mkList [(0, ""), (1, ""), (2, ""), (3, ""), (4, "")]

/-- Several sources given to a decoder. -/
def giveAll (gf : GF w) (dbg : Bool) (d : Dec) (l : List (Nat × String)) : Out Dec :=
  l.foldlM (fun d p => d.onSource gf dbg (src p.1 p.2)) d

/-- "Decoder: useless repair" (101-131) -/
def uselessRepair (gf : GF w) (dbg : Bool) : Out Bool := do
  let r ← encodeRepair gf dbg 0 five
  let d ← giveAll gf dbg (Dec.init false) [(0, ""), (1, ""), (2, ""), (3, ""), (4, "")]
  let d ← d.onRepair gf dbg (mkRepair r)
  return d.sources.length = 5 && d.missing.isEmpty && d.repairs.length = 0 && d.nbUseless = 1

/-- "Decoder: missing sources" (135-160) -/
def missingSources (gf : GF w) (dbg : Bool) : Out Bool := do
  let r ← encodeRepair gf dbg 0 five
  let d ← giveAll gf dbg (Dec.init false) [(0, ""), (2, ""), (4, "")]
  let d ← d.onRepair gf dbg (mkRepair r)
  return d.sources.length = 3 && d.missing.length = 2 && d.repairs.length = 1 && d.nbUseless = 0

/-- "Decoder: drop outdated sources" (164-220) -/
def dropSources (gf : GF w) (dbg : Bool) : Out Bool := do
  let d ← giveAll gf dbg (Dec.init false) [(0, ""), (1, "")]
  let r ← encodeRepair gf dbg 0 (mkList [(2, ""), (3, ""), (4, "")])
  -- "sources lost"
  let d1 ← d.onRepair gf dbg (mkRepair r)
  -- "sources received"
  let d2 ← giveAll gf dbg d [(2, ""), (3, ""), (4, "")]
  let d2 ← d2.onRepair gf dbg (mkRepair r)
  return d.sources.length = 2 && seen d1 = ([], [2, 3, 4], [0]) && d1.nbUseless = 0 && seen d2 = ([2, 3, 4], [], []) && d2.nbUseless = 1

/-- "Decoder: drop outdated lost sources" (224-294) -/
def dropLost (gf : GF w) (dbg : Bool) : Out Bool := do
  let r0 ← encodeRepair gf dbg 0 (mkList [(0, ""), (1, "")])
  let d ← (Dec.init false).onRepair gf dbg (mkRepair r0)
  let r1 ← encodeRepair gf dbg 1 (mkList [(2, ""), (3, "")])
  -- "sources lost"
  let d1 ← d.onRepair gf dbg (mkRepair r1)
  -- "sources received"
  let d2 ← giveAll gf dbg d [(2, ""), (3, "")]
  let d2 ← d2.onRepair gf dbg (mkRepair r1)
  return seen d = ([], [0, 1], [0]) && (d.repairs.get? 0).any (fun r => !r.ids.isEmpty) &&
    seen d1 = ([], [2, 3], [1]) && d1.nbUseless = 0 && seen d2 = ([2, 3], [], []) && d2.nbUseless = 1

/-- "Decoder: one source lost encoded in one received repair" (298-327) -/
def oneLost (gf : GF w) (dbg : Bool) : Out Bool := do
  let r ← encodeRepair gf dbg 0 (mkList [(0, "abcd")])
  let d ← (Dec.init false).onRepair gf dbg (mkRepair r)
  return d.log.map (fun e => (e.id, e.data)) = [(0, str "abcd")]

/-- "Decoder: 2 lost sources from 2 repairs" (331-382) -/
def twoLost (gf : GF w) (dbg : Bool) : Out Bool := do
  let l := mkList [(0, "abcd"), (1, "efghijkl")]
  let r0 ← encodeRepair gf dbg 0 l
  let r1 ← encodeRepair gf dbg 1 l
  let d ← (Dec.init false).onRepair gf dbg (mkRepair r0)
  let d1 ← d.onRepair gf dbg (mkRepair r1)
  return seen d = ([], [0, 1], [0]) && seen d1 = ([0, 1], [], []) && d1.nbFailed = 0 &&
    d1.sources = [(0, src 0 "abcd"), (1, src 1 "efghijkl")]

/-- "Decoder: several lost sources from several repairs" (388-577): the common part, then the repairs 2, 3, 4 of `l2`, `l3` and, when
the inversion fails, 5. -/
def severalLost (gf : GF w) (dbg : Bool) (l2 l3 : List (Nat × String)) (mid : List Nat) (fin : OMap DSource) : Out Bool := do
  let l := mkList [(0, "aaaa"), (1, "bbbbbbbb")]
  let r0 ← encodeRepair gf dbg 0 l
  let r1 ← encodeRepair gf dbg 1 l
  let d0 ← (Dec.init false).onRepair gf dbg (mkRepair r0)
  let d1 ← d0.onRepair gf dbg (mkRepair r1)
  let r2 ← encodeRepair gf dbg 2 (mkList l2)
  let r3 ← encodeRepair gf dbg 3 (mkList l3)
  let r4 ← encodeRepair gf dbg 4 (mkList l3)
  let r5 ← encodeRepair gf dbg 5 (mkList l3)
  let d2 ← d1.onRepair gf dbg (mkRepair r2)
  let d3 ← d2.onRepair gf dbg (mkRepair r3)
  let d4 ← d3.onRepair gf dbg (mkRepair r4)
  let d5 ← if d4.nbFailed ≠ 0 then d4.onRepair gf dbg (mkRepair r5) else .ok d4
  return seen d0 = ([], [0, 1], [0]) && d1.sources = [(0, src 0 "aaaa"), (1, src 1 "bbbbbbbb")] && d1.missing = [] && d1.repairs = [] &&
    seen d2 = (mid, [2, 3], [2]) && seen d3 = (mid, [2, 3, 4], [2, 3]) &&
    (d4.nbFailed = 0 || d4.repairs.length = 2) && d5.nbFailed = d4.nbFailed &&
    d5.missing = [] && d5.repairs = [] && d5.sources = fin

/-- "Sources are not outdated" (442-510) -/
def severalNot (gf : GF w) (dbg : Bool) : Out Bool :=
  severalLost gf dbg [(0, "aaaa"), (1, "bbbbbbbb"), (2, "cccccccccccc"), (3, "dddd")]
    [(0, "aaaa"), (1, "bbbbbbbb"), (2, "cccccccccccc"), (3, "dddd"), (4, "eeeeeeee")] [0, 1]
    [(0, src 0 "aaaa"), (1, src 1 "bbbbbbbb"), (2, src 2 "cccccccccccc"), (3, src 3 "dddd"), (4, src 4 "eeeeeeee")]

/-- "Sources are outdated" (512-576) -/
def severalOut (gf : GF w) (dbg : Bool) : Out Bool :=
  severalLost gf dbg [(2, "cccccccccccc"), (3, "dddd")] [(2, "cccccccccccc"), (3, "dddd"), (4, "eeeeeeee")] []
    [(2, src 2 "cccccccccccc"), (3, src 3 "dddd"), (4, src 4 "eeeeeeee")]

/-- "Decoder: duplicate source" (581-601) -/
def dupSource (gf : GF w) (dbg : Bool) : Out Bool := do
  let d ← giveAll gf dbg (Dec.init false) [(0, "")]
  let d1 ← giveAll gf dbg d [(0, "")]
  return seen d = ([0], [], []) && d.nbUseless = 0 && seen d1 = ([0], [], []) && d1.nbUseless = 0

/-- "Decoder: out-of-order source after repair" (605-651) -/
def lateSource (gf : GF w) (dbg : Bool) : Out Bool := do
  let r0 ← encodeRepair gf dbg 0 (mkList [(0, "")])
  let d ← (Dec.init false).onRepair gf dbg (mkRepair r0)
  -- "Lost source is not outdated"
  let d1 ← giveAll gf dbg d [(0, "")]
  -- "Lost source is outdated"
  let r1 ← encodeRepair gf dbg 0 (mkList [(1, "")])
  let d2 ← d.onRepair gf dbg (mkRepair r1)
  let d3 ← giveAll gf dbg d2 [(0, "")]
  return d.sources.keys = [0] && d1.sources.keys = [0] && d2.sources.keys = [1] && d3.sources.keys = [1]

/-- "Decoder: duplicate repair 1" (655-714) -/
def dupRepair1 (gf : GF w) (dbg : Bool) : Out Bool := do
  let r0 ← encodeRepair gf dbg 0 (mkList [(0, "")])
  let d ← (Dec.init false).onRepair gf dbg (mkRepair r0)
  -- "Reconstructed source is not outdated"
  let d1 ← d.onRepair gf dbg (mkRepair r0)
  -- "Reconstructed source is outdated"
  let r1 ← encodeRepair gf dbg 0 (mkList [(1, "")])
  let d2 ← d.onRepair gf dbg (mkRepair r1)
  let d3 ← d2.onRepair gf dbg (mkRepair r0)
  return seen d = ([0], [], []) && d.nbUseless = 0 && seen d1 = ([0], [], []) && d1.nbUseless = 1 &&
    seen d3 = ([1], [], []) && d3.nbUseless = 0

/-- "Decoder: duplicate repair 2" (718-756) -/
def dupRepair2 (gf : GF w) (dbg : Bool) : Out Bool := do
  let r0 ← encodeRepair gf dbg 0 (mkList [(0, ""), (1, "")])
  let d ← (Dec.init false).onRepair gf dbg (mkRepair r0)
  let d1 ← d.onRepair gf dbg (mkRepair r0)
  return seen d = ([], [0, 1], [0]) && d.nbUseless = 0 && seen d1 = ([], [0, 1], [0]) && d1.nbUseless = 0

/-- "Decoder: source after repair" (760-796) -/
def sourceAfter (gf : GF w) (dbg : Bool) : Out Bool := do
  let r0 ← encodeRepair gf dbg 0 (mkList [(0, "abcd"), (1, "efghijkl")])
  let d ← (Dec.init false).onRepair gf dbg (mkRepair r0)
  let d1 ← giveAll gf dbg d [(0, "abcd")]
  return seen d = ([], [0, 1], [0]) && seen d1 = ([0, 1], [], [])

/-- "Decoder: repair with only one source" (800-832) -/
def onlyOne (gf : GF w) (dbg : Bool) : Out Bool := do
  let r0 ← encodeRepair gf dbg 0 (mkList [(0, "abcd")])
  let d ← (Dec.init false).onRepair gf dbg (mkRepair r0)
  return d.sources = [(0, src 0 "abcd")] && d.missing = [] && d.repairs = []

/-- "Decoder: 1 packet loss" (836-883) -/
def oneLoss (gf : GF w) (dbg : Bool) : Out Bool := do
  let r0 ← encodeRepair gf dbg 0 (mkList [(0, "aaaa"), (1, "bbbbbbbb"), (2, "cccccccccccc"), (3, "dddd")])
  let d ← giveAll gf dbg (Dec.init false) [(1, "bbbbbbbb"), (2, "cccccccccccc"), (3, "dddd")]
  let d1 ← d.onRepair gf dbg (mkRepair r0)
  return seen d = ([1, 2, 3], [], []) && seen d1 = ([0, 1, 2, 3], [], []) && d1.nbUseless = 0 && d1.nbFailed = 0

/-- "2 repairs for 3 sources" (887-948) -/
def twoForThree (gf : GF w) (dbg : Bool) : Out Bool := do
  let l := mkList [(0, "aaaa"), (1, "bbbbbbbbbbbb"), (2, "cccc")]
  let r0 ← encodeRepair gf dbg 0 l
  let r1 ← encodeRepair gf dbg 1 l
  let d ← (Dec.init false).onRepair gf dbg (mkRepair r0)
  let d ← d.onRepair gf dbg (mkRepair r1)
  let d1 ← giveAll gf dbg d [(2, "cccc")]
  return d.nbDecoded = 0 && d.missing.length = 3 && d1.nbDecoded = 2 && d1.missing.length = 0 &&
    d1.log.all (fun e => (e.id = 0 && e.data = str "aaaa") || (e.id = 1 && e.data = str "bbbbbbbbbbbb") || (e.id = 2 && e.data = str "cccc"))

/-- "Outdating repair, but not reffered sources" (952-986) -/
def notReferred (gf : GF w) (dbg : Bool) : Out Bool := do
  let r0 ← encodeRepair gf dbg 0 (mkList [(0, "aaaa"), (1, "bbbbbbbbbbbb"), (2, "cccc")])
  let d ← giveAll gf dbg (Dec.init true) [(0, "aaaa")]
  let d ← d.onRepair gf dbg (mkRepair r0)
  return d.nbDecoded = 0 && d.missing.length = 2

example : launch reconstruct = true := by decide +kernel
example : launch removeOne = true := by decide +kernel
example : launch uselessRepair = true := by decide +kernel
example : launch missingSources = true := by decide +kernel
example : launch dropSources = true := by decide +kernel
example : launch dropLost = true := by decide +kernel
example : launch oneLost = true := by decide +kernel
example : launch twoLost = true := by decide +kernel
example : launch severalNot = true := by decide +kernel
example : launch severalOut = true := by decide +kernel
example : launch dupSource = true := by decide +kernel
example : launch lateSource = true := by decide +kernel
example : launch dupRepair1 = true := by decide +kernel
example : launch dupRepair2 = true := by decide +kernel
example : launch sourceAfter = true := by decide +kernel
example : launch onlyOne = true := by decide +kernel
example : launch oneLoss = true := by decide +kernel
example : launch twoForThree = true := by decide +kernel
example : launch notReferred = true := by decide +kernel

end Netcode.Conform
