import Verif.Proofs.Crafted
import Verif.Proofs.DecHist
import Mathlib.Data.List.Perm.Subperm

/-!
# Made-up repairs that a decoder keeps: lemmas
-/

namespace Netcode

open OMap

variable {w : Nat}

/-- What the loop over the sources of a repair leaves, if some of the unknown ones were missing before. -/
structure Chained (S : OMap DSource) (l : List Nat) (r : DRepair) (m : OMap (List Nat)) (z : DRepair × OMap (List Nat)) : Prop where
  id : z.1.id = r.id
  ids : z.1.ids = r.ids.filter (fun y => !(decide (y ∈ l) && S.has y))
  keys : ∀ x, x ∈ z.2.map (·.1) ↔ x ∈ m.map (·.1) ∨ x ∈ l ∧ S.has x = false

theorem chain_fold (gf : GF w) (dbg : Bool) (S : OMap DSource) (l : List Nat) (r : DRepair) (m : OMap (List Nat)) (hl : l.Nodup)
    (hsub : ∀ x ∈ l, x ∈ r.ids) (hn : r.ids.Nodup) (hu : ∃ u ∈ r.ids, S.has u = false) (hs : r.symSize ≤ r.buf.length) :
    ((∃ z, l.foldlM (linkStep gf dbg S) (r, m) = .ok z) ↔ ∀ x ∈ l, ∀ v, S.get? x = some v → r.Takes w dbg v.sym.length) ∧
      ∀ z, l.foldlM (linkStep gf dbg S) (r, m) = .ok z → Chained S l r m z := by
  induction l generalizing r m with
  | nil =>
    refine ⟨⟨fun _ => by simp, fun _ => ⟨_, rfl⟩⟩, fun z hz => ?_⟩
    cases hz
    exact ⟨rfl, by simp, by simp⟩
  | cons x t ih =>
    obtain ⟨hx, ht⟩ := List.nodup_cons.1 hl
    rw [List.foldlM_cons]
    cases hg : S.get? x with
    | none =>
      have hh : S.has x = false := by rw [has_eq, hg]; rfl
      obtain ⟨m1, hstep, hk⟩ : ∃ m1, linkStep gf dbg S (r, m) x = .ok (r, m1) ∧ ∀ y, y ∈ m1.map (·.1) ↔ y = x ∨ y ∈ m.map (·.1) := by
        cases hmf : m.has x with
        | true =>
          refine ⟨m.modify x (fun l => setInsert l r.id), ?_, fun y => ?_⟩
          · unfold linkStep
            simp only [hg, hmf]
            rfl
          · rw [keys_modify]
            constructor
            · exact .inr
            · rintro (rfl | h)
              · exact (has_iff _ _).1 hmf
              · exact h
        | false =>
          refine ⟨m.emplace x [r.id], ?_, fun y => mem_keys_emplace _ _ _ _⟩
          unfold linkStep
          simp only [hg, hmf]
          rfl
      obtain ⟨i1, i2⟩ := ih r m1 ht (fun y hy => hsub y (by simp [hy])) hn hu hs
      rw [hstep]
      refine ⟨i1.trans ⟨fun h y hy v hv => ?_, fun h y hy => h y (by simp [hy])⟩, fun z hz => ?_⟩
      · rcases List.mem_cons.1 hy with rfl | hy
        · rw [hg] at hv; cases hv
        · exact h y hy v hv
      · obtain ⟨a1, a4, a7⟩ := i2 z hz
        refine ⟨a1, ?_, fun y => ?_⟩
        · rw [a4]
          refine List.filter_congr (fun y _ => ?_)
          by_cases hy : y = x
          · subst hy; simp [hh]
          · simp [hy]
        · rw [a7, hk, List.mem_cons]
          constructor
          · rintro ((rfl | h) | h)
            · exact .inr ⟨.inl rfl, hh⟩
            · exact .inl h
            · exact .inr ⟨.inr h.1, h.2⟩
          · rintro (h | ⟨rfl | h, h'⟩)
            · exact .inl (.inr h)
            · exact .inl (.inl rfl)
            · exact .inr ⟨h, h'⟩
    | some v =>
      have hh : S.has x = true := by rw [has_eq, hg]; rfl
      have hlen : 1 < r.ids.length := by
        obtain ⟨u, hu1, hu2⟩ := hu
        have hne : u ≠ x := fun e => by rw [e, hh] at hu2; cases hu2
        have h1 := List.length_pos_of_mem ((List.mem_erase_of_ne hne).2 hu1)
        have h2 := List.length_erase_of_mem (hsub x (by simp))
        omega
      have hiff := removeData_iff gf dbg v r hlen hs
      by_cases hT : r.Takes w dbg v.sym.length
      · obtain ⟨r1, hr1⟩ := hiff.2 hT
        obtain ⟨b1, b2, b3, b4, -⟩ := removeData_inv hr1
        have hstep : linkStep gf dbg S (r, m) x = .ok ({ r1 with ids := r1.ids.erase x }, m) := by
          unfold linkStep
          simp only [hg, hr1, bind, Except.bind]
          rfl
        have hmem : ∀ y, y ∈ (r1.ids.erase x) ↔ y ∈ r.ids ∧ y ≠ x := by
          intro y
          rw [b2, hn.mem_erase_iff, and_comm]
        obtain ⟨i1, i2⟩ := ih { r1 with ids := r1.ids.erase x } m ht
          (fun y hy => (hmem y).2 ⟨hsub y (by simp [hy]), fun e => hx (e ▸ hy)⟩)
          (by show (r1.ids.erase x).Nodup; rw [b2]; exact hn.erase x)
          (by
            obtain ⟨u, hu1, hu2⟩ := hu
            exact ⟨u, (hmem u).2 ⟨hu1, fun e => by rw [e, hh] at hu2; cases hu2⟩, hu2⟩)
          (by show r1.symSize ≤ r1.buf.length; rw [b3, b4]; exact hs)
        rw [hstep]
        have hc : ∀ n, ({ r1 with ids := r1.ids.erase x } : DRepair).Takes w dbg n ↔ r.Takes w dbg n :=
          fun n => takes_congr (r := r) (by exact b3) (by exact b4) n
        refine ⟨i1.trans ⟨fun h y hy v' hv => ?_, fun h y hy v' hv => (hc _).2 (h y (by simp [hy]) v' hv)⟩, fun z hz => ?_⟩
        · rcases List.mem_cons.1 hy with rfl | hy
          · rw [hg] at hv; cases hv; exact hT
          · exact (hc _).1 (h y hy v' hv)
        · obtain ⟨a1, a4, a7⟩ := i2 z hz
          refine ⟨a1.trans b1, ?_, fun y => ?_⟩
          · rw [a4]
            show (r1.ids.erase x).filter _ = _
            rw [b2, hn.erase_eq_filter, List.filter_filter]
            refine List.filter_congr (fun y _ => ?_)
            by_cases hy : y = x
            · subst hy; simp [hh]
            · simp [hy]
          · rw [a7, List.mem_cons]
            constructor
            · rintro (h | h)
              · exact .inl h
              · exact .inr ⟨.inr h.1, h.2⟩
            · rintro (h | ⟨rfl | h, h'⟩)
              · exact .inl h
              · rw [hh] at h'; cases h'
              · exact .inr ⟨h, h'⟩
      · have hstep : ∀ z, linkStep gf dbg S (r, m) x ≠ .ok z := by
          intro z hz
          unfold linkStep at hz
          simp only [hg, bind_ok_iff] at hz
          obtain ⟨r1, hr1, -⟩ := hz
          exact hT (hiff.1 ⟨r1, hr1⟩)
        have herr : ∃ e, linkStep gf dbg S (r, m) x = .error e := by
          cases hz : linkStep gf dbg S (r, m) x with
          | error e => exact ⟨e, rfl⟩
          | ok z => exact absurd hz (hstep z)
        obtain ⟨e, he⟩ := herr
        rw [he]
        refine ⟨⟨fun hz => (by obtain ⟨z, hz⟩ := hz; cases hz), fun h => absurd (h x (by simp) v hg) hT⟩, fun z hz => by cases hz⟩

/-- A decoder does not change its mind about the order. -/
theorem after_mode {gf : GF w} {dbg : Bool} {clk : Clock} {io : Bool} {acts : List DAct} {d : NDec}
    (h : (NDec.init clk io).after gf dbg clk acts = .ok d) : d.det.inOrder = io := by
  refine nafter_induct (fun d => d.det.inOrder = io) (fun d1 d2 a h1 h2 => ?_) acts _ _ rfl h
  rcases act_det h2 with e | ⟨p, n, rfl, ⟨s, -, -, h3⟩ | ⟨r, -, -, h3⟩⟩
  · rw [e]; exact h1
  · rw [(onSource_ext h3).inOrder]; exact h1
  · rw [(onRepair_ext h3).inOrder]; exact h1

theorem dropRepairs_none (dbg : Bool) (id : Nat) (l : OMap DRepair) (s : Dec) (h : ∀ q ∈ l, q.2.ids ≠ [] ∧ ∀ x ∈ q.2.ids, id ≤ x) :
    dropRepairs dbg id l s = .ok s := by
  induction l with
  | nil => rfl
  | cons q t ih =>
    obtain ⟨rid, r⟩ := q
    obtain ⟨h1, h2⟩ := h (rid, r) (by simp)
    unfold dropRepairs
    cases hids : r.ids with
    | nil => exact absurd hids h1
    | cons x rest =>
      have hx := h2 x (by rw [hids]; simp)
      simp only [bind, Except.bind]
      rw [cassert_ok _ (by rfl)]
      simp only
      rw [if_neg (by omega)]
      exact ih fun q hq => h q (by simp [hq])

theorem eraseBelow_none {V : Type} (m : OMap V) (k : Nat) (h : ∀ x ∈ m.keys, k ≤ x) : m.eraseBelow k = m := by
  unfold OMap.eraseBelow
  rw [List.filter_eq_self]
  intro q hq
  simpa using h q.1 (List.mem_map.2 ⟨q, hq, rfl⟩)

/-- Nothing is outdated. -/
theorem dropOutdated_none (dbg : Bool) (id : Nat) (s : Dec)
    (hio : s.inOrder = true → (∀ k ∈ s.ordered, id ≤ k) ∧ id ≤ s.firstMissing ∧ s.firstMissing ∉ s.ordered) (hlast : s.lastId = some id) (hl : Low id s.lastId s)
    (hne : ∀ q ∈ s.repairs, q.2.ids ≠ []) : s.dropOutdated dbg id = .ok s := by
  have e : { s with lastId := some id } = s := by cases s; simp only at hlast; subst hlast; rfl
  unfold Dec.dropOutdated
  simp only [bind, Except.bind]
  rw [e, dropRepairs_none dbg id s.repairs s fun q hq => ⟨hne q hq, hl.rep q hq⟩]
  simp only
  have e3 : s.giveAllOutdated dbg id = .ok s := by
    unfold Dec.giveAllOutdated
    split
    · next hi =>
      obtain ⟨h1, h2, h3⟩ := hio hi
      have e4 : s.ordered.takeWhile (fun k => decide (k < id)) = [] := by
        cases ho : s.ordered with
        | nil => rfl
        | cons a t =>
          have := h1 a (by rw [ho]; simp)
          rw [List.takeWhile_cons_of_neg (by simpa using this)]
      rw [e4]
      unfold giveOutdated
      simp only [bind, Except.bind]
      rw [if_neg (by omega)]
      unfold Dec.flush
      rw [if_neg h3]
    · rfl
  rw [e3]
  simp only
  rw [eraseBelow_none _ _ hl.src, eraseBelow_none _ _ hl.mis]
  rfl

theorem onRepair_kept_iff (gf : GF w) (dbg : Bool) (s : Dec) (r : DRepair) (id : Nat)
    (hio : s.inOrder = true → (∀ k ∈ s.ordered, id ≤ k) ∧ id ≤ s.firstMissing ∧ s.firstMissing ∉ s.ordered) (hlast : s.lastId = some id)
    (hl : Low id s.lastId s) (hne : ∀ q ∈ s.repairs, q.2.ids ≠ []) (hsort : Sorted r.ids) (hs : r.symSize ≤ r.buf.length)
    (hfirst : r.ids.head? = some id) (hnew : r.id ∉ s.repairs.keys) (hu : 2 ≤ (r.unknown s.sources).length)
    (hfew : s.repairs.length + 1 < (s.missing.keys.toFinset ∪ (r.unknown s.sources).toFinset).card) :
    (∃ s', s.onRepair gf dbg r = .ok s') ↔
      (∀ v ∈ r.known s.sources, r.Takes w dbg v.sym.length) ∧
      ∀ x ∈ r.unknown s.sources, ∀ l, s.missing.get? x = some l → ∀ i ∈ l, i ∈ s.repairs.keys := by
  have hnd : r.ids.Nodup := hsort.imp (fun h => Nat.ne_of_lt h)
  obtain ⟨rest, hids⟩ : ∃ rest, r.ids = id :: rest := by
    cases h : r.ids with
    | nil => rw [h] at hfirst; cases hfirst
    | cons a t => rw [h] at hfirst; cases hfirst; exact ⟨t, rfl⟩
  obtain ⟨lst, hlst⟩ : ∃ a, r.ids.getLast? = some a := ⟨_, List.getLast?_eq_getLast_of_ne_nil (by rw [hids]; simp)⟩
  have hge : id ≤ lst := by
    have := List.mem_of_getLast? hlst
    rw [hids] at this hsort
    rcases List.mem_cons.1 this with rfl | h
    · exact Nat.le_refl _
    · exact Nat.le_of_lt ((List.pairwise_cons.1 hsort).1 _ h)
  have hmem : ∃ u ∈ r.ids, s.sources.has u = false := by
    obtain ⟨u, hu'⟩ := List.exists_mem_of_length_pos (show 0 < (r.unknown s.sources).length by omega)
    obtain ⟨h1, h2⟩ := List.mem_filter.1 hu'
    exact ⟨u, h1, by simpa using h2⟩
  have hall : ¬ r.ids.all (fun x => s.sources.has x) = true := by
    obtain ⟨u, h1, h2⟩ := hmem
    intro h
    rw [List.all_eq_true.1 h u h1] at h2
    cases h2
  have hlinks : linksAlive s.repairs s.missing (r.unknown s.sources) = true ↔
      ∀ x ∈ r.unknown s.sources, ∀ l, s.missing.get? x = some l → ∀ i ∈ l, i ∈ s.repairs.keys := by
    unfold linksAlive
    rw [List.all_eq_true]
    refine forall₂_congr fun x hx => ?_
    cases hg : s.missing.get? x with
    | none => simp
    | some l =>
      simp only [Option.getD_some, List.all_eq_true, Option.some.injEq, forall_eq']
      exact forall₂_congr fun i _ => has_iff _ _
  obtain ⟨f1, f2⟩ := chain_fold gf dbg s.sources r.ids.reverse r s.missing (List.nodup_reverse.2 hnd) (by simp) hnd hmem hs
  have f3 : (∀ x ∈ r.ids.reverse, ∀ v, s.sources.get? x = some v → r.Takes w dbg v.sym.length) ↔
      ∀ v ∈ r.known s.sources, r.Takes w dbg v.sym.length := by
    constructor
    · intro hh v hv
      obtain ⟨x, hx, hg⟩ := List.mem_filterMap.1 hv
      exact hh x (by simpa using hx) v hg
    · intro hh x hx v hg
      exact hh v (List.mem_filterMap.2 ⟨x, by simpa using hx, hg⟩)
  rw [f3] at f1
  have hstart : s.onRepair gf dbg r = (do
      ensure (linksAlive s.repairs s.missing (r.unknown s.sources)) .dangling
      let (r', missing) ← r.ids.reverse.foldlM (linkStep gf dbg s.sources) (r, s.missing)
      cassert dbg (!r'.ids.isEmpty)
      let s2 := { s with repairs := s.repairs.emplace r'.id r', missing := missing }
      if r'.ids.length = 1 then
        let src ← createSource gf dbg r'
        let s3 := { s2 with nbDecoded := s2.nbDecoded + 1, missing := s2.missing.erase src.id, repairs := s2.repairs.erase r'.id }
        addSource gf dbg s3.fuel src s3
      else s2.fullDecode gf dbg) := by
    unfold Dec.onRepair
    rw [cassert_ok _ (by rw [hids]; rfl), hlst, hfirst]
    simp only [bind, Except.bind]
    rw [if_neg (by rw [hlast]; simp; omega), if_neg (by rw [has_iff]; exact hnew), dropOutdated_none dbg id s hio hlast hl hne]
    simp only
    rw [if_neg hall]
    rfl
  rw [← hlinks, and_comm, hstart]
  cases hal : linksAlive s.repairs s.missing (r.unknown s.sources) with
  | false => simp [ensure, bind, Except.bind]
  | true =>
    simp only [true_and]
    rw [← f1]
    cases hz : r.ids.reverse.foldlM (linkStep gf dbg s.sources) (r, s.missing) with
    | error e => simp [ensure, bind, Except.bind]
    | ok z =>
      refine iff_of_true ?_ ⟨z, rfl⟩
      obtain ⟨r', m'⟩ := z
      obtain ⟨c1, c2, c3⟩ := f2 _ hz
      have hids' : r'.ids = r.unknown s.sources := by
        rw [c2]
        exact List.filter_congr fun y hy => by simp [hy]
      have hm : s.repairs.length + 1 < m'.length := by
        refine Nat.lt_of_lt_of_le hfew ?_
        refine le_trans (Finset.card_le_card (t := (m'.map (·.1)).toFinset) fun x hx => ?_)
          (le_trans (List.toFinset_card_le _) (by simp))
        rw [List.mem_toFinset, c3]
        rcases Finset.mem_union.1 hx with hx | hx
        · exact .inl (List.mem_toFinset.1 hx)
        · obtain ⟨h1, h2⟩ := List.mem_filter.1 (List.mem_toFinset.1 hx)
          exact .inr ⟨by simpa using h1, by simpa using h2⟩
      have hr := length_emplace_le s.repairs r'.id r'
      simp only [ensure, bind, Except.bind, if_true]
      rw [cassert_ok _ (by rw [hids']; cases h : r.unknown s.sources with
        | nil => rw [h] at hu; simp at hu
        | cons a t => rfl)]
      simp only
      rw [if_neg (by rw [hids']; omega)]
      unfold Dec.fullDecode
      simp only [bind, Except.bind]
      split
      · exact ⟨_, rfl⟩
      · rw [if_pos (by show m'.length > _; omega)]
        exact ⟨_, rfl⟩

/-- The loop over the missing sources finds nothing to decode, whatever the links. -/
theorem scan_pass (gf : GF w) (dbg : Bool) (s : Dec)
    (h2 : ∀ x rid, s.missing.get? x = some [rid] → ∃ r, s.repairs.get? rid = some r ∧ r.ids.length ≠ 1) (fuel : Nat) (k : Option Nat)
    (hk : ∀ x, k = some x → x ∈ s.missing.map (·.1))
    (hf : ∀ x, k = some x → ((s.missing.map (·.1)).filter (fun y => decide (x ≤ y))).length ≤ fuel) :
    scanMissing gf dbg fuel k s = .ok s := by
  induction fuel generalizing k with
  | zero =>
    cases k with
    | none => unfold scanMissing; rfl
    | some x =>
      have h1 := hf x rfl
      have : 0 < ((s.missing.map (·.1)).filter (fun y => decide (x ≤ y))).length := by
        apply List.length_pos_of_mem (a := x)
        rw [List.mem_filter]; exact ⟨hk x rfl, by simp⟩
      omega
  | succ fuel ih =>
    cases k with
    | none => unfold scanMissing; rfl
    | some x =>
      have hx := hk x rfl
      have hnext : scanMissing gf dbg fuel (s.missing.next? x) s = .ok s := by
        apply ih
        · intro y hy; exact (next?_mem hy).1
        · intro y hy
          have hlt := (next?_mem hy).2
          have h1 := hf x rfl
          have h3 : ((s.missing.map (·.1)).filter (fun z => decide (y ≤ z))).length
              < ((s.missing.map (·.1)).filter (fun z => decide (x ≤ z))).length := by
            have e : (s.missing.map (·.1)).filter (fun z => decide (y ≤ z))
                = ((s.missing.map (·.1)).filter (fun z => decide (x ≤ z))).filter (fun z => decide (y ≤ z)) := by
              rw [List.filter_filter]
              apply List.filter_congr
              intro z _
              by_cases hz : y ≤ z
              · have : x ≤ z := by omega
                simp [hz, this]
              · simp [hz]
            rw [e]
            have hm : x ∈ (s.missing.map (·.1)).filter (fun z => decide (x ≤ z)) := by
              rw [List.mem_filter]; exact ⟨hx, by simp⟩
            rw [List.length_filter_lt_length_iff_exists]
            exact ⟨x, hm, by simp; omega⟩
          omega
      unfold scanMissing
      obtain ⟨l, hl⟩ := (get?_isSome_iff s.missing x).2 hx
      rw [hl]
      match l, hl with
      | [], _ => exact hnext
      | [rid], hl =>
        obtain ⟨r, hr, hn⟩ := h2 x rid hl
        simp only
        rw [hr]
        simp only
        rw [if_neg hn]
        exact hnext
      | _ :: _ :: _, _ => exact hnext

theorem onSource_pass (gf : GF w) (dbg : Bool) (s : Dec) (src : DSource) (hio : s.inOrder = false)
    (hl : s.lastId.any (fun l => decide (src.id < l)) = false) (hn : s.sources.has src.id = false) (hm : s.missing.get? src.id = none)
    (h2 : ∀ x rid, s.missing.get? x = some [rid] → ∃ r, s.repairs.get? rid = some r ∧ r.ids.length ≠ 1)
    (hfew : s.repairs = [] ∨ s.missing = [] ∨ s.repairs.length < s.missing.length) :
    s.onSource gf dbg src = .ok { s.callback src with sources := s.sources.emplace src.id src } := by
  obtain ⟨f, hf, hle⟩ : ∃ f, s.fuel = f + 1 ∧ s.missing.length ≤ f := by
    have : s.missing.length + 1 ≤ s.fuel := by
      unfold Dec.fuel
      calc s.missing.length + 1 ≤ 1 * (s.missing.length + 3) := by omega
        _ ≤ _ := Nat.mul_le_mul_right _ (by omega)
    exact ⟨s.fuel - 1, by omega, by omega⟩
  have e1 : addSourceHead gf dbg src s = .ok (s.callback src) := by
    unfold addSourceHead Dec.giveNew
    simp only [hio, Bool.not_false, if_true, bind, Except.bind]
    rw [show (s.callback src).missing = s.missing from rfl, hm]
    rfl
  have e2 : scanMissing gf dbg f ((s.callback src).missing.keys.head?) (s.callback src) = .ok (s.callback src) := by
    refine scan_pass gf dbg (s.callback src) h2 f _ (fun x hx => head?_mem hx) (fun x _ => ?_)
    have := List.length_filter_le (fun y => decide (x ≤ y)) (s.missing.map (·.1))
    rw [List.length_map] at this
    exact Nat.le_trans this hle
  have e3 : addSource gf dbg s.fuel src s = .ok { s.callback src with sources := s.sources.emplace src.id src } := by
    rw [hf]
    unfold addSource
    simp only [bind, Except.bind, e1, e2]
    unfold addSourceTail
    rw [cassert_true _ (by rw [show (s.callback src).sources = s.sources from rfl]; simp [hn])]
    simp only [bind, Except.bind]
    rw [if_neg (by rw [show (s.callback src).inOrder = s.inOrder from rfl, hio]; simp)]
    rfl
  unfold Dec.onSource
  rw [if_neg (by rw [hl]; simp), if_neg (by rw [hn]; simp), e3]
  simp only [bind, Except.bind]
  unfold Dec.fullDecode
  rcases hfew with h | h | h
  · rw [if_pos (by show (s.repairs.isEmpty || _) = true; rw [h]; rfl)]; rfl
  · rw [if_pos (by show (_ || s.missing.isEmpty) = true; rw [h]; simp)]; rfl
  · split
    · rfl
    · rw [if_pos (by exact h)]; rfl

/-- A source that no repair waits for, once it is given. -/
theorem onSource_given (gf : GF w) (dbg : Bool) (s s1 : Dec) (src : DSource) (hg : s.giveNew dbg src = .ok s1)
    (k1 : s1.missing = s.missing) (k2 : s1.repairs = s.repairs) (k3 : s1.sources = s.sources)
    (hl : s.lastId.any (fun l => decide (src.id < l)) = false) (hn : s.sources.has src.id = false) (hm : s.missing.get? src.id = none)
    (h2 : ∀ x rid, s.missing.get? x = some [rid] → ∃ r, s.repairs.get? rid = some r ∧ r.ids.length ≠ 1)
    (hfew : s.repairs = [] ∨ s.missing = [] ∨ s.repairs.length < s.missing.length) :
    ∃ s', s.onSource gf dbg src = .ok s' ∧ s'.log = s1.log := by
  obtain ⟨f, hf, hle⟩ : ∃ f, s.fuel = f + 1 ∧ s.missing.length ≤ f := by
    have : s.missing.length + 1 ≤ s.fuel := by
      unfold Dec.fuel
      calc s.missing.length + 1 ≤ 1 * (s.missing.length + 3) := by omega
        _ ≤ _ := Nat.mul_le_mul_right _ (by omega)
    exact ⟨s.fuel - 1, by omega, by omega⟩
  have e1 : addSourceHead gf dbg src s = .ok s1 := by
    unfold addSourceHead
    simp only [hg, bind, Except.bind]
    rw [k1, hm]
    rfl
  have e2 : scanMissing gf dbg f (s1.missing.keys.head?) s1 = .ok s1 := by
    refine scan_pass gf dbg s1 (by rw [k1, k2]; exact h2) f _ (fun x hx => head?_mem hx) (fun x _ => ?_)
    have := List.length_filter_le (fun y => decide (x ≤ y)) (s1.missing.map (·.1))
    rw [List.length_map, k1] at this
    rw [k1]
    exact Nat.le_trans this hle
  obtain ⟨s', e3, g1, g2, g3⟩ : ∃ s', addSource gf dbg s.fuel src s = .ok s' ∧ s'.log = s1.log ∧ s'.repairs = s1.repairs ∧
      s'.missing = s1.missing := by
    rw [hf]
    unfold addSource
    simp only [bind, Except.bind, e1, e2]
    unfold addSourceTail
    rw [cassert_true _ (by rw [k3]; simp [hn])]
    simp only [bind, Except.bind]
    split
    · exact ⟨_, rfl, rfl, rfl, rfl⟩
    · exact ⟨_, rfl, rfl, rfl, rfl⟩
  refine ⟨s', ?_, g1⟩
  unfold Dec.onSource
  rw [if_neg (by rw [hl]; simp), if_neg (by rw [hn]; simp), e3]
  simp only [bind, Except.bind]
  unfold Dec.fullDecode
  rw [g2, g3, k1, k2]
  rcases hfew with h | h | h
  · rw [if_pos (by rw [h]; rfl)]; rfl
  · rw [if_pos (by rw [h]; simp)]; rfl
  · split
    · rfl
    · rfl

/-- What an ordering decoder gives with a source, if no source is withheld behind it. -/
theorem giveNew_alone (dbg : Bool) (s : Dec) (src : DSource) (hio : s.inOrder = true) (hno : src.id = s.firstMissing → (src.id + 1) % 2 ^ 32 ∉ s.ordered) :
    ∃ s1, s.giveNew dbg src = .ok s1 ∧ s1.missing = s.missing ∧ s1.repairs = s.repairs ∧ s1.sources = s.sources ∧
      s1.log.map (·.data) = if src.id = s.firstMissing then s.log.map (·.data) ++ [src.sym] else s.log.map (·.data) := by
  unfold Dec.giveNew
  rw [if_neg (by rw [hio]; simp)]
  by_cases h : src.id = s.firstMissing
  · rw [if_pos h, if_pos h]
    unfold Dec.flush
    rw [if_neg (by rw [← h]; exact hno h)]
    exact ⟨_, rfl, rfl, rfl, rfl, by simp [Dec.callback]⟩
  · rw [if_neg h, if_neg h]
    exact ⟨_, rfl, rfl, rfl, rfl, rfl⟩

/-- A source that can be taken out of a repair of three or more sources. -/
theorem removeFromRepair_iff (gf : GF w) (dbg : Bool) (src : DSource) (r : DRepair) (hi : src.id ∈ r.ids) (hl : 2 < r.ids.length)
    (hs : r.symSize ≤ r.buf.length) :
    ((∃ r', removeFromRepair gf dbg src r = .ok r') ↔ r.Takes w dbg src.sym.length) ∧
    ∀ r', removeFromRepair gf dbg src r = .ok r' → r'.ids.length ≠ 1 := by
  have hiff := removeData_iff gf dbg src r (by omega) hs
  constructor
  · rw [← hiff]
    constructor
    · rintro ⟨r', h⟩
      simp only [removeFromRepair, bind_ok_iff, pure_ok_iff] at h
      obtain ⟨r1, h1, -⟩ := h
      exact ⟨r1, h1⟩
    · rintro ⟨r1, h1⟩
      obtain ⟨-, b2, -⟩ := removeData_inv h1
      have c1 : cassert dbg (decide (src.id ∈ r1.ids)) = .ok () := (cassert_iff _ _).2 (fun _ => by rw [b2]; simpa using hi)
      unfold removeFromRepair
      simp only [h1, bind, Except.bind, c1]
      unfold ensure
      rw [if_pos (by rw [b2]; simpa using hi)]
      exact ⟨_, rfl⟩
  · intro r' h
    simp only [removeFromRepair, bind_ok_iff, pure_ok_iff] at h
    obtain ⟨r1, h1, _, -, _, -, rfl⟩ := h
    obtain ⟨-, b2, -⟩ := removeData_inv h1
    show (r1.ids.erase src.id).length ≠ 1
    rw [b2, List.length_erase_of_mem hi]
    omega

/-- A source that can be taken out of all repairs that wait for it. -/
theorem removeFromAll_iff (gf : GF w) (dbg : Bool) (src : DSource) (links : List Nat) (s : Dec) (hnd : links.Nodup)
    (h : ∀ i ∈ links, ∃ r, s.repairs.get? i = some r ∧ src.id ∈ r.ids ∧ 2 < r.ids.length ∧ r.symSize ≤ r.buf.length) :
    ((∃ s', removeFromAll gf dbg src links s = .ok s') ↔ ∀ i ∈ links, ∀ r, s.repairs.get? i = some r → r.Takes w dbg src.sym.length) ∧
    ∀ s', removeFromAll gf dbg src links s = .ok s' → ∃ R, s' = { s with repairs := R } ∧ R.length = s.repairs.length ∧
      ∀ i r, s.repairs.get? i = some r → r.ids.length ≠ 1 → ∃ r', R.get? i = some r' ∧ r'.ids.length ≠ 1 := by
  induction links generalizing s with
  | nil =>
    unfold removeFromAll
    refine ⟨⟨fun _ i hi => absurd hi (by simp), fun _ => ⟨_, rfl⟩⟩, ?_⟩
    rintro s' hs
    cases hs
    exact ⟨s.repairs, rfl, rfl, fun i r hr hn => ⟨r, hr, hn⟩⟩
  | cons a t ih =>
    obtain ⟨ra, g1, g2, g3, g4⟩ := h a (by simp)
    obtain ⟨hat, hnd'⟩ := List.nodup_cons.1 hnd
    obtain ⟨k1, k2⟩ := removeFromRepair_iff gf dbg src ra g2 g3 g4
    unfold removeFromAll
    rw [g1]
    simp only
    cases hr1 : removeFromRepair gf dbg src ra with
    | error e =>
      simp only [bind, Except.bind]
      refine ⟨⟨fun ⟨_, hx⟩ => (by cases hx), fun hT => ?_⟩, fun _ hx => (by cases hx)⟩
      obtain ⟨r', hr'⟩ := k1.2 (hT a (by simp) ra g1)
      rw [hr1] at hr'
      cases hr'
    | ok r1 =>
      simp only [bind, Except.bind]
      have hget : ∀ i, i ≠ a → (s.repairs.modify a (fun _ => r1)).get? i = s.repairs.get? i := fun i hi => by
        rw [OMap.get?_modify, if_neg hi]
      have hne : ∀ i ∈ t, i ≠ a := fun i hi e => hat (e ▸ hi)
      obtain ⟨m1, m2⟩ := ih { s with repairs := s.repairs.modify a (fun _ => r1) } hnd' (fun i hi => by
        simp only
        rw [hget i (hne i hi)]
        exact h i (by simp [hi]))
      refine ⟨m1.trans ⟨fun hT i hi r hr => ?_, fun hT i hi r hr => ?_⟩, fun s' hs' => ?_⟩
      · rcases List.mem_cons.1 hi with rfl | hi
        · rw [g1] at hr
          cases hr
          exact k1.1 ⟨r1, hr1⟩
        · exact hT i hi r (by simp only; rw [hget i (hne i hi)]; exact hr)
      · simp only at hr
        rw [hget i (hne i hi)] at hr
        exact hT i (by simp [hi]) r hr
      · obtain ⟨R, rfl, n1, n2⟩ := m2 s' hs'
        refine ⟨R, rfl, by rw [n1]; simp, fun i r hr hn => ?_⟩
        by_cases e : i = a
        · exact n2 i r1 (by simp only; rw [OMap.get?_modify, if_pos e, hr]; rfl) (k2 r1 hr1)
        · exact n2 i r (by simp only; rw [hget i e]; exact hr) hn

/-- A source that repairs wait for, if nothing can be decoded with it, once it is given. -/
theorem onSource_awaited (gf : GF w) (dbg : Bool) (s s1 : Dec) (src : DSource) (hg : s.giveNew dbg src = .ok s1)
    (k1 : s1.missing = s.missing) (k2 : s1.repairs = s.repairs) (k3 : s1.sources = s.sources) (links : List Nat)
    (hl : s.lastId.any (fun l => decide (src.id < l)) = false) (hn : s.sources.has src.id = false) (hm : s.missing.get? src.id = some links)
    (hnd : links.Nodup)
    (h : ∀ i ∈ links, ∃ r, s.repairs.get? i = some r ∧ src.id ∈ r.ids ∧ 2 < r.ids.length ∧ r.symSize ≤ r.buf.length)
    (h2 : ∀ x rid, s.missing.get? x = some [rid] → ∃ r, s.repairs.get? rid = some r ∧ r.ids.length ≠ 1)
    (hfew : s.repairs.length < (s.missing.erase src.id).length) :
    ((∃ s', s.onSource gf dbg src = .ok s') ↔ ∀ i ∈ links, ∀ r, s.repairs.get? i = some r → r.Takes w dbg src.sym.length) ∧
    ∀ s', s.onSource gf dbg src = .ok s' → s'.log = s1.log := by
  obtain ⟨f, hf, hle⟩ : ∃ f, s.fuel = f + 1 ∧ s.missing.length ≤ f := by
    have : s.missing.length + 1 ≤ s.fuel := by
      unfold Dec.fuel
      calc s.missing.length + 1 ≤ 1 * (s.missing.length + 3) := by omega
        _ ≤ _ := Nat.mul_le_mul_right _ (by omega)
    exact ⟨s.fuel - 1, by omega, by omega⟩
  obtain ⟨m1, m2⟩ := removeFromAll_iff gf dbg src links s1 hnd (by rw [k2]; exact h)
  rw [k2] at m1
  have e0 : ∃ g : Dec → Dec, (∀ t, (g t).log = t.log) ∧
      s.onSource gf dbg src = (removeFromAll gf dbg src links s1).bind (fun t => .ok (g t)) := by
    refine ⟨fun t => if t.inOrder && decide (src.id > t.firstMissing)
      then { t with missing := t.missing.erase src.id, sources := t.sources.emplace src.id src, ordered := setInsert t.ordered src.id }
      else { t with missing := t.missing.erase src.id, sources := t.sources.emplace src.id src }, fun t => by
        simp only
        split <;> rfl, ?_⟩
    unfold Dec.onSource
    rw [if_neg (by rw [hl]; simp), if_neg (by rw [hn]; simp), hf]
    unfold addSource addSourceHead
    simp only [hg, bind, Except.bind]
    rw [k1, hm]
    simp only
    cases hra : removeFromAll gf dbg src links s1 with
    | error e => rfl
    | ok t =>
      obtain ⟨R, rfl, n1, n2⟩ := m2 t hra
      simp only [pure, Except.pure]
      have hle' : (s.missing.erase src.id).length ≤ s.missing.length := by
        unfold OMap.erase
        exact List.length_filter_le _ _
      have e2 : scanMissing gf dbg f (s1.missing.erase src.id).keys.head?
          { s1 with repairs := R, missing := s1.missing.erase src.id } =
          .ok { s1 with repairs := R, missing := s1.missing.erase src.id } := by
        refine scan_pass gf dbg _ (fun x rid hx => ?_) f _ (fun x hx => head?_mem hx) (fun x _ => ?_)
        · obtain ⟨r, hr, hne⟩ := h2 x rid (by
            simp only [OMap.get?_erase, k1] at hx
            split at hx
            · cases hx
            · exact hx)
          exact n2 rid r (by rw [k2]; exact hr) hne
        · have := List.length_filter_le (fun y => decide (x ≤ y)) ((s1.missing.erase src.id).map (·.1))
          rw [List.length_map] at this
          rw [k1] at this ⊢
          exact Nat.le_trans this (Nat.le_trans hle' hle)
      rw [e2]
      simp only
      unfold addSourceTail
      rw [cassert_true _ (by show (!s1.sources.has src.id) = true; rw [k3, hn]; rfl)]
      simp only [bind, Except.bind, pure, Except.pure]
      have hfew' : R.length < (s1.missing.erase src.id).length := by rw [n1, k1, k2]; exact hfew
      have hfull : ∀ u : Dec, u.repairs = R → u.missing = s1.missing.erase src.id → u.fullDecode gf dbg = .ok u := by
        intro u hu1 hu2
        unfold Dec.fullDecode
        rw [hu1, hu2]
        split
        · rfl
        · rfl
      by_cases hc : (s1.inOrder && decide (src.id > s1.firstMissing)) = true
      · simp only [hc, if_true]
        rw [hfull _ (by rfl) (by rfl)]
      · rw [Bool.not_eq_true] at hc
        simp only [hc, Bool.false_eq_true, if_false]
        rw [hfull _ (by rfl) (by rfl)]
  obtain ⟨g, hglog, e0⟩ := e0
  constructor
  · refine Iff.trans ?_ m1
    rw [e0]
    constructor
    · rintro ⟨s', hs'⟩
      revert hs'
      cases removeFromAll gf dbg src links s1 with
      | error e => intro hs'; cases hs'
      | ok t => exact fun _ => ⟨t, rfl⟩
    · rintro ⟨t, ht⟩
      rw [ht]
      exact ⟨_, rfl⟩
  · intro s'
    rw [e0]
    cases hra : removeFromAll gf dbg src links s1 with
    | error e => intro hs'; cases hs'
    | ok t =>
      obtain ⟨R, rfl, -, -⟩ := m2 t hra
      intro hs'
      cases hs'
      rw [hglog]

/-- What a decoder withholds, while the first missing source may be withheld. -/
structure WaitW (s : Dec) : Prop where
  sorted : Sorted s.ordered
  ge : ∀ k ∈ s.ordered, s.firstMissing ≤ k
  src : ∀ k ∈ s.ordered, k ∈ s.sources.keys

theorem flushLoop_wait (dbg : Bool) (l : List Nat) (s : Dec) (h : WaitW s) (hl : s.ordered = l)
    (hh : ∀ k ∈ l.head?, k = s.firstMissing) :
    ∃ s', flushLoop dbg l s = .ok s' ∧ s'.sources = s.sources := by
  induction l generalizing s with
  | nil =>
    exact ⟨s, by unfold flushLoop; rfl, rfl⟩
  | cons id rest ih =>
    have hid : id = s.firstMissing := hh id (by simp)
    have hs := h.sorted
    rw [hl] at hs
    have hc := List.pairwise_cons.1 hs
    obtain ⟨src, hcb⟩ := callbackOrdered_total (s := s) (k := id) (h.src id (by rw [hl]; simp))
    unfold flushLoop
    rw [cassert_ok _ (by simpa using hid), hcb]
    simp only [bind, Except.bind, Dec.callback, hl, List.erase_cons_head]
    have hW : ∀ (fm : Nat) (lg : List Event), (∀ k ∈ rest, fm ≤ k) →
        WaitW { s with ordered := rest, firstMissing := fm, log := lg } := by
      intro fm lg hge
      exact ⟨hc.2, hge, fun k hk => h.src k (by rw [hl]; simp [hk])⟩
    cases rest with
    | nil =>
      exact ⟨_, rfl, rfl⟩
    | cons nxt t =>
      simp only
      have hlt : s.firstMissing < nxt := by rw [← hid]; exact hc.1 nxt (by simp)
      have hge : ∀ k ∈ nxt :: t, nxt ≤ k := by
        intro k hk
        rcases List.mem_cons.1 hk with rfl | hk
        · exact Nat.le_refl _
        · exact Nat.le_of_lt ((List.pairwise_cons.1 hc.2).1 k hk)
      split
      · exact ⟨_, rfl, rfl⟩
      · rename_i hgt
        have hmod : (s.firstMissing + 1) % 2 ^ 32 ≤ s.firstMissing + 1 := Nat.mod_le _ _
        have heq : nxt = (s.firstMissing + 1) % 2 ^ 32 := by simp only [gt_iff_lt] at hgt; omega
        exact ih _ (hW _ _ (fun k hk => by rw [← heq]; exact hge k hk)) rfl (by simpa using heq)

theorem flush_wait (dbg : Bool) (s : Dec) (h : WaitW s) :
    ∃ s', s.flush dbg = .ok s' ∧ s'.sources = s.sources := by
  unfold Dec.flush
  split
  · rename_i hm
    have hd : s.ordered.dropWhile (fun k => decide (k < s.firstMissing)) = s.ordered := by
      cases ho : s.ordered with
      | nil => rfl
      | cons a t =>
        rw [List.dropWhile_cons_of_neg]
        have := h.ge a (by rw [ho]; simp)
        simpa using this
    rw [hd]
    refine flushLoop_wait dbg s.ordered s h rfl ?_
    intro k hk
    cases ho : s.ordered with
    | nil => rw [ho] at hm; cases hm
    | cons a t =>
      rw [ho] at hk hm
      simp only [List.head?_cons, Option.mem_def, Option.some.injEq] at hk
      subst hk
      have h1 := h.ge a (by rw [ho]; simp)
      rcases List.mem_cons.1 hm with e | e
      · exact e.symm
      · have hs := h.sorted
        rw [ho] at hs
        have := (List.pairwise_cons.1 hs).1 _ e
        omega
  · rename_i hm
    exact ⟨s, rfl, rfl⟩

/-- What an ordering decoder gives with the next source. -/
theorem giveNew_next (dbg : Bool) (s : Dec) (src : DSource) (hio : s.inOrder = true) (hfm : src.id = s.firstMissing)
    (h1 : Sorted s.ordered) (h2 : ∀ k ∈ s.ordered, s.firstMissing < k) (h3 : ∀ k ∈ s.ordered, k ∈ s.sources.keys) :
    ∃ s1, s.giveNew dbg src = .ok s1 ∧ s1.missing = s.missing ∧ s1.repairs = s.repairs ∧ s1.sources = s.sources ∧
      s.log.map (·.data) ++ [src.sym] <+: s1.log.map (·.data) := by
  unfold Dec.giveNew
  rw [if_neg (by rw [hio]; simp), if_pos hfm]
  have hmod : (s.firstMissing + 1) % 2 ^ 32 ≤ s.firstMissing + 1 := Nat.mod_le _ _
  obtain ⟨s1, e1, e2⟩ := flush_wait dbg { s.callback src with firstMissing := (s.firstMissing + 1) % 2 ^ 32 }
    ⟨h1, fun k hk => Nat.le_trans hmod (h2 k hk), h3⟩
  refine ⟨s1, e1, (flush_same e1).missing, (flush_same e1).repairs, e2, ?_⟩
  have := (flush_ext e1).log.map (·.data)
  simpa [Dec.callback] using this

end Netcode
