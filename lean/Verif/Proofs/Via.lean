import Verif.Spec.Via
import Verif.Proofs.Both

/-!
# What a receiver makes of a packet: proofs

Each state is compared with one of the closed system by means of a third one, whose decoder got every repair without the bytes that are
never read.
-/

namespace Netcode

variable {w : Nat}

/-- A repair packet up to the end of the encoded size. -/
def repairCore (r : ERepair) : List Byte :=
  beBytes 1 1 ++ (beBytes 4 r.id ++ (beBytes 2 r.sym.length ++ (r.sym ++ []))) ++
    ((writeIds r.ids).flatten ++ (beBytes 2 r.encSize.toNat ++ []))

theorem writeRepair_core (r : ERepair) : (writeRepair r).flatten = repairCore r ++ (beBytes 2 r.sym.length ++ r.sym) := writeRepair_split r

theorem repairCore_ne (r : ERepair) : repairCore r ≠ [] := by simp [repairCore, beBytes]

theorem repairCore_type (r : ERepair) : getPacketType (repairCore r) = .ok .repair := by simp [repairCore, beBytes, getPacketType]

theorem readRepair_core (r : ERepair) (hids : WireIds r.ids) (hi : r.id < 2 ^ 32) (hl : r.sym.length < 2 ^ 16) :
    readRepair (repairCore r) = .ok
      (⟨r.id, r.ids, r.encSize, r.sym ++ ((writeIds r.ids).flatten ++ beBytes 2 r.encSize.toNat), r.sym.length⟩, (repairCore r).length) := by
  have r2 := reads_int 4 r.id
  rw [Nat.mod_eq_of_lt (by simpa using hi)] at r2
  have r3 := reads_int 2 r.sym.length
  rw [Nat.mod_eq_of_lt (by simpa using hl)] at r3
  have r4 := reads_int 2 r.encSize.toNat
  rw [Nat.mod_eq_of_lt (by simpa using r.encSize.isLt)] at r4
  have h : Reads repairReader (repairCore r) ((r.id, r.sym.length), r.ids, r.encSize.toNat) := by
    refine reads_bind (a := (r.id, r.sym.length)) ?_ (reads_bind (reads_ids _ hids) (reads_bind r4 (reads_pure _)))
    exact reads_bind (reads_int 1 1) (reads_bind r2 (reads_bind r3 (reads_bind (reads_skip _) (reads_pure _))))
  obtain ⟨c', e, _, hp⟩ := h (repairCore r) (whole _) [] (by rw [List.append_nil]; exact at_whole _)
  rw [readRepair_eq, e]
  simp only [Except.map, hp, whole, Nat.zero_add, Except.ok.injEq, Prod.mk.injEq, DRepair.mk.injEq, true_and,
    and_true, BitVec.ofNat_toNat]
  refine ⟨by simp, ?_⟩
  have : repairCore r = (beBytes 1 1 ++ beBytes 4 r.id ++ beBytes 2 r.sym.length) ++
    (r.sym ++ ((writeIds r.ids).flatten ++ beBytes 2 r.encSize.toNat)) := by
    simp [repairCore]
  rw [this, List.drop_append_of_le_length (by simp [beBytes_length, headerSize]),
    List.drop_of_length_le (by simp [beBytes_length, headerSize])]
  simp

/-- What is enough of a repair starts with its core. -/
theorem enough_core {r : ERepair} {q : List Byte} (h : (EPkt.repair r).Enough q) : ∃ j, q = repairCore r ++ j := by
  have hb : (EPkt.repair r).bytes = repairCore r ++ (beBytes 2 r.sym.length ++ r.sym) := writeRepair_core r
  rcases h with ⟨j, rfl⟩ | ⟨r', e, ⟨t, ht⟩, hl⟩
  · rw [hb, List.append_assoc]; exact ⟨_, rfl⟩
  · cases e
    have h1 : (repairCore r).length ≤ q.length := by
      rw [hb] at hl
      simp only [List.length_append, beBytes_length] at hl
      omega
    rw [hb] at ht
    have h2 : repairCore r <+: q := List.prefix_of_prefix_length_le (⟨_, rfl⟩ : repairCore r <+: repairCore r ++ _) ⟨t, ht⟩ h1
    obtain ⟨j, hj⟩ := h2
    exact ⟨j, hj.symm⟩

theorem enough_source {x : ESource} {q : List Byte} (h : (EPkt.source x).Enough q) : ∃ j, q = (EPkt.source x).bytes ++ j := by
  rcases h with ⟨j, rfl⟩ | ⟨r', e, -⟩
  · exact ⟨j, rfl⟩
  · cases e

/-- The state in the middle is fine. -/
def Fine (c : Cfg w) (io : Bool) (m : Sys) : Prop :=
  ∀ (_ : Fact (0 < w)) data, Agree data m.committed → GInv c io data m

/-- How the state is compared. -/
structure Alike (c : Cfg w) (late io : Bool) (s S m : Sys) (R R' : OMap DRepair) : Prop where
  reach : Reaches c late io s
  inv : Fine c io m
  fst : Longer m.dec.det.repairs R
  snd : Longer m.dec.det.repairs R'
  eqs : s = { m with dec := m.dec.withR R }
  eqS : S = { m with dec := m.dec.withR R' }

theorem agree_own (com : List (List Byte)) : Agree (fun x => com.getD x []) com := by
  intro x d hx
  simp only [List.getD_eq_getElem?_getD, hx, Option.getD_some]

theorem inv_errs {c : Cfg w} (hc : c.Ok) {io : Bool} {m : Sys} (h : Fine c io m) : m.errs = 0 := by
  have := fact_of_valid hc.width
  exact (h this _ (agree_own m.committed)).errs

/-- A step of the state in the middle, which is one of the closed system. -/
theorem inv_step {c : Cfg w} (hc : c.Ok) {io : Bool} {m m' : Sys} {a : Act} (h : Fine c io m) (ha : AllowedLate c m a)
    (hst : m.step c a = .ok m') : Fine c io m' := by
  intro _ data hag
  have hcom := step_committed hst
  rw [hcom] at hag
  have hD : ∀ d, a = .commit d → data m.committed.length = d := by
    rintro d rfl
    exact hag _ d (by simp [Act.commits])
  obtain ⟨s2, h1, h2⟩ := (h ‹_› data hag.prefix).step hc hag.prefix a ha hD
  rw [hst] at h1
  cases h1
  exact h2

theorem inv_can {c : Cfg w} (hc : c.Ok) {io : Bool} {m : Sys} {a : Act} (h : Fine c io m) (ha : AllowedLate c m a) :
    ∃ m', m.step c a = .ok m' := by
  have := fact_of_valid hc.width
  let com := m.committed ++ a.commits
  have hag : Agree (fun x => com.getD x []) com := agree_own com
  have hD : ∀ d, a = .commit d → com.getD m.committed.length [] = d := by
    rintro d rfl
    show (m.committed ++ [d]).getD _ _ = d
    simp [List.getD_eq_getElem?_getD]
  obtain ⟨s2, h1, _⟩ := (h this _ hag.prefix).step hc hag.prefix a ha hD
  exact ⟨s2, h1⟩

/-- A step in which bytes are added, or none. -/
theorem alike_padded {c : Cfg w} (hc : c.Ok) {late io : Bool} {s S m : Sys} {R R' : OMap DRepair} (h : Alike c late io s S m R R') {a : Act}
    (ha : Permits c late S a) (j : List Byte) :
    ∃ s' S' m' R1 R1', S.stepPadded c a j = .ok S' ∧ s.step c a = .ok s' ∧ Alike c late io s' S' m' R1 R1' := by
  have ha' : Permits c late m a := by rw [h.eqS] at ha; exact (permits_withR h.snd.keyIds).1 ha
  obtain ⟨m', h1⟩ := inv_can hc h.inv ha'.toLate
  have hI := inv_step hc h.inv ha'.toLate h1
  have he : m'.errs = m.errs := by rw [inv_errs hc hI, inv_errs hc h.inv]
  obtain ⟨R1, k1, k2⟩ := step_tail [] h.fst h1 he
  obtain ⟨R2, k3, k4⟩ := step_tail j h.snd h1 he
  rw [← h.eqs] at k1
  rw [← h.eqS] at k3
  have k5 : s.step c a = .ok { m' with dec := m'.dec.withR R1 } := by
    rw [← k1]
    cases a with
    | deliver i => simp only [Sys.stepPadded, Sys.step, List.append_nil]; rfl
    | ack i => simp only [Sys.stepPadded, Sys.step, List.append_nil]; rfl
    | _ => rfl
  have has : Permits c late s a := by rw [h.eqs]; exact (permits_withR h.fst.keyIds).2 ha'
  exact ⟨_, _, m', R1, R2, k3, k5, h.reach.step has k5, hI, k2, k4, rfl, rfl⟩

/-- A step. -/
theorem alike_step {c : Cfg w} (hc : c.Ok) {late io : Bool} {s S m : Sys} {R R' : OMap DRepair} (h : Alike c late io s S m R R') {a : Act} {q : List Byte}
    (ha : AllowedVia c late S a q) :
    ∃ s' S' m' R1 R1', S.stepVia c a q = .ok S' ∧ s.step c a = .ok s' ∧ Alike c late io s' S' m' R1 R1' := by
  have := fact_of_valid hc.width
  have ha1 := ha.allowed
  cases a with
  | deliver i =>
    cases hp : S.enc.out[i]? with
    | none =>
      obtain ⟨s', S', m', R1, R1', h1, h2, h3⟩ := alike_padded hc h ha1 []
      refine ⟨s', S', m', R1, R1', ?_, h2, h3⟩
      simp only [Sys.stepPadded, hp] at h1
      simp only [Sys.stepVia, hp, h1]
    | some p =>
      have hen := ha.packet i p rfl hp
      cases p with
      | source x =>
        obtain ⟨j, rfl⟩ := enough_source hen
        obtain ⟨s', S', m', R1, R1', h1, h2, h3⟩ := alike_padded hc h ha1 j
        refine ⟨s', S', m', R1, R1', ?_, h2, h3⟩
        simp only [Sys.stepPadded, hp] at h1
        simp only [Sys.stepVia, hp, h1]
      | repair r =>
        obtain ⟨j, rfl⟩ := enough_core hen
        have ha' : Permits c late m (.deliver i) := by rw [h.eqS] at ha1; exact (permits_withR h.snd.keyIds).1 ha1
        have hpm : m.enc.out[i]? = some (.repair r) := by rw [h.eqS] at hp; exact hp
        have has : Permits c late s (.deliver i) := by rw [h.eqs]; exact (permits_withR h.fst.keyIds).2 ha'
        have hal := ha'.toLate
        simp only [AllowedLate, hpm, Allowed] at hal
        -- the state in the middle gets the core
        have key : ∀ data, Agree data m.committed → ∃ d o, m.dec.notify c.gf c.dbg c.clk (repairCore r) = .ok (d, o) ∧
            GInv c io data { m with dec := d, hist := m.hist ++ [i], errs := m.errs + errCount o } := by
          intro data hag
          obtain ⟨s', h1, h2⟩ := (h.inv this data hag).repairVia hc hag hpm ha'.toLate (repairCore r)
            ((writeIds r.ids).flatten ++ beBytes 2 r.encSize.toNat) _ (repairCore_ne r) (repairCore_type r)
            (fun g1 g2 => readRepair_core r hal.2.1 g1 g2)
          obtain ⟨⟨d, o⟩, g1, g2⟩ := bind_ok_iff.1 h1
          cases g2
          exact ⟨d, o, g1, h2⟩
        obtain ⟨d, o, hn, -⟩ := key _ (agree_own m.committed)
        have hI : Fine c io { m with dec := d, hist := m.hist ++ [i], errs := m.errs + errCount o } := by
          intro _ data hag
          obtain ⟨d', o', g2, g3⟩ := key data hag
          rw [hn] at g2
          cases g2
          exact g3
        have he := inv_errs hc hI
        have ho : o ≠ .error .overflow := by
          rintro rfl
          simp only [errCount] at he
          omega
        obtain ⟨R1, k1, k2⟩ := notify_tail h.fst hn ho (beBytes 2 r.sym.length ++ r.sym)
        obtain ⟨R2, k3, k4⟩ := notify_tail h.snd hn ho j
        have es : s.step c (.deliver i) = .ok
            { m with dec := d.withR R1, hist := m.hist ++ [i], errs := m.errs + errCount o } := by
          have : s.enc.out[i]? = some (.repair r) := by rw [h.eqs]; exact hpm
          simp only [Sys.step, this]
          rw [show (EPkt.repair r).bytes = _ from writeRepair_core r, show s.dec = m.dec.withR R by rw [h.eqs], k1, h.eqs]
          rfl
        refine ⟨_, { m with dec := d.withR R2, hist := m.hist ++ [i], errs := m.errs + errCount o },
          { m with dec := d, hist := m.hist ++ [i], errs := m.errs + errCount o }, R1, R2, ?_, es,
          h.reach.step has es, hI, k2, k4, rfl, rfl⟩
        simp only [Sys.stepVia, hp]
        rw [show S.dec = m.dec.withR R' by rw [h.eqS], k3, h.eqS]
        rfl
  | ack k =>
    cases hp : S.dec.out[k]? with
    | none =>
      obtain ⟨s', S', m', R1, R1', h1, h2, h3⟩ := alike_padded hc h ha1 []
      refine ⟨s', S', m', R1, R1', ?_, h2, h3⟩
      simp only [Sys.stepPadded, hp] at h1
      simp only [Sys.stepVia, hp, h1]
    | some p =>
      obtain ⟨j, rfl⟩ := ha.ack k p rfl hp
      obtain ⟨s', S', m', R1, R1', h1, h2, h3⟩ := alike_padded hc h ha1 j
      refine ⟨s', S', m', R1, R1', ?_, h2, h3⟩
      simp only [Sys.stepPadded, hp] at h1
      simp only [Sys.stepVia, hp, h1]
  | _ =>
    obtain ⟨s', S', m', R1, R1', h1, h2, h3⟩ := alike_padded hc h ha1 []
    exact ⟨s', S', m', R1, R1', h1, h2, h3⟩

theorem alike_reach {c : Cfg w} (hc : c.Ok) {late io : Bool} {S : Sys} (h : ReachVia c late io S) : ∃ s m R R', Alike c late io s S m R R' := by
  have := fact_of_valid hc.width
  induction h with
  | init => exact ⟨_, Sys.init c.clk io, [], [], Reaches.init, fun _ data hag => ginv_of_late hc ReachLate.init data hag, Longer.nil, Longer.nil, rfl, rfl⟩
  | step _ ha hst ih =>
    obtain ⟨s, m, R, R', hA⟩ := ih
    obtain ⟨s', S', m', R1, R1', h1, -, h3⟩ := alike_step hc hA ha
    rw [hst] at h1
    cases h1
    exact ⟨_, _, _, _, h3⟩

end Netcode
