import Verif.Spec.Named
import Verif.Proofs.Keep
import Verif.Props.Decoder

/-!
# C88, C89: what a decoder acknowledges, and for how long
-/

namespace Netcode

variable {w : Nat} {gf : GF w} {dbg : Bool} {clk : Clock}

theorem nafter_mem_induct (P : NDec → Prop) (acts : List DAct)
    (hstep : ∀ d d' a, a ∈ acts → P d → d.act gf dbg clk a = .ok d' → P d') (d d' : NDec) (h0 : P d)
    (h : d.after gf dbg clk acts = .ok d') : P d' := by
  induction acts generalizing d with
  | nil => cases h; exact h0
  | cons a t ih =>
    obtain ⟨d1, h1, h2⟩ := after_cons.1 h
    exact ih (fun d d' b hb => hstep d d' b (List.mem_cons_of_mem _ hb)) d1 (hstep _ _ _ List.mem_cons_self h0 h1) h2

theorem head_lt {l : List Nat} (hs : Sorted l) {f x : Nat} (hf : l.head? = some f) (hx : x < f) : l ≠ [] ∧ ∀ y ∈ l, x < y := by
  cases l with
  | nil => cases hf
  | cons a t =>
    cases hf
    refine ⟨by simp, fun y hy => ?_⟩
    rcases List.mem_cons.1 hy with rfl | hy
    · exact hx
    · exact Nat.lt_trans hx ((List.pairwise_cons.1 hs).1 y hy)

/-- What a call keeps of the sources held, and of those handed over meanwhile. -/
theorem act_keep {d d' : NDec} {a : DAct} (h : d.act gf dbg clk a = .ok d') (o : OwnId d.det) :
    OwnId d'.det ∧ d.det.log <+: d'.det.log ∧
    (∀ x, x ∈ d.det.sources.keys ∨ (∃ ev ∈ d'.det.log.drop d.det.log.length, ev.id = x) →
      x ∈ d'.det.sources.keys ∨ ∃ p, a = .packet p ∧ Passes p x) := by
  rcases act_det h with e | ⟨p, n, rfl, ⟨s, h1, h2, h3⟩ | ⟨r, h1, h2, h3⟩⟩
  · rw [e]
    refine ⟨o, List.prefix_refl _, ?_⟩
    rintro x (hx | ⟨ev, hev, -⟩)
    · exact .inl hx
    · simp at hev
  · have g : Give (fun _ => False) _ _ := onSource_give h3
    refine ⟨g.own o, g.pre, ?_⟩
    rintro x (hx | ⟨ev, hev, rfl⟩)
    · exact .inl (g.keys x hx)
    · exact .inl ((g.new o ev hev).elim id False.elim)
  · obtain ⟨f, hf, g1, g2, g3, g4⟩ := onRepair_give h3 o
    have hs := readRepair_sorted h2
    refine ⟨g1, g4, ?_⟩
    have fin : ∀ x, x ∈ d'.det.sources.keys ∨ x < f → x ∈ d'.det.sources.keys ∨ ∃ q, DAct.packet p = .packet q ∧ Passes q x := by
      rintro x (hx | hx)
      · exact .inl hx
      · exact .inr ⟨p, rfl, h1, r, n, h2, (head_lt hs hf hx).1, (head_lt hs hf hx).2⟩
    rintro x (hx | ⟨ev, hev, rfl⟩)
    · exact fin x (g2 x hx)
    · exact fin _ ((g3 ev hev).imp id And.left)

theorem after_keep {d d' : NDec} {acts : List DAct} (h : d.after gf dbg clk acts = .ok d') (o : OwnId d.det) :
    OwnId d'.det ∧ d.det.log <+: d'.det.log ∧
    (∀ x, x ∈ d.det.sources.keys ∨ (∃ ev ∈ d'.det.log.drop d.det.log.length, ev.id = x) →
      x ∈ d'.det.sources.keys ∨ ∃ p, .packet p ∈ acts ∧ Passes p x) := by
  refine nafter_mem_induct (P := fun e => OwnId e.det ∧ d.det.log <+: e.det.log ∧
    (∀ x, x ∈ d.det.sources.keys ∨ (∃ ev ∈ e.det.log.drop d.det.log.length, ev.id = x) →
      x ∈ e.det.sources.keys ∨ ∃ p, .packet p ∈ acts ∧ Passes p x)) acts ?_ d d' ⟨o, List.prefix_refl _, ?_⟩ h
  · rintro d1 d2 a ha ⟨p1, p2, p3⟩ hs
    obtain ⟨q1, q2, q3⟩ := act_keep hs p1
    refine ⟨q1, p2.trans q2, ?_⟩
    have fin : ∀ x, x ∈ d2.det.sources.keys ∨ (∃ p, a = .packet p ∧ Passes p x) →
        x ∈ d2.det.sources.keys ∨ ∃ p, .packet p ∈ acts ∧ Passes p x := by
      rintro x (hx | ⟨p, rfl, hp⟩)
      · exact .inl hx
      · exact .inr ⟨p, ha, hp⟩
    have old : ∀ x, (x ∈ d.det.sources.keys ∨ (∃ ev ∈ d1.det.log.drop d.det.log.length, ev.id = x)) →
        x ∈ d2.det.sources.keys ∨ ∃ p, .packet p ∈ acts ∧ Passes p x := by
      intro x hx
      rcases p3 x hx with hx | hx
      · exact fin x (q3 x (.inl hx))
      · exact .inr hx
    rintro x (hx | ⟨ev, hev, rfl⟩)
    · exact old x (.inl hx)
    · rw [drop_split p2 q2, List.mem_append] at hev
      rcases hev with hev | hev
      · exact old _ (.inr ⟨ev, hev, rfl⟩)
      · exact fin _ (q3 _ (.inr ⟨ev, hev, rfl⟩))
  · rintro x (hx | ⟨ev, hev, -⟩)
    · exact .inl hx
    · simp at hev

theorem init_own (clk : Clock) (io : Bool) : OwnId (NDec.init clk io).det := fun _ hp => by cases hp

/-! ## C88 -/

/-- **C88.** In any history, whatever the packets are: a source that was handed over is named by the ack that the user asks for,
unless a repair arrived whose sources are all later. -/
theorem C88_handed (gf : GF w) (dbg : Bool) (clk : Clock) (io : Bool) (acts : List DAct) (d : NDec)
    (h : (NDec.init clk io).after gf dbg clk acts = .ok d) (x : Nat) (hx : x ∈ d.det.handed) :
    (∃ a, d.generateAck.out = d.out ++ [a] ∧ x ∈ a.ids) ∨ ∃ p, .packet p ∈ acts ∧ Passes p x := by
  obtain ⟨-, -, k⟩ := after_keep h (init_own clk io)
  obtain ⟨ev, hev, rfl⟩ := List.mem_map.1 hx
  refine (k _ (.inr ⟨ev, (by simpa [NDec.init, Dec.init] using hev), rfl⟩)).imp (fun hk => ?_) id
  obtain ⟨a, h1, h2⟩ := C24_names_all_held gf dbg clk io acts d h
  exact ⟨a, h1, (h2 _).2 hk⟩

/-- **C88**: a source named by an ack that the user asks for at some time is named by those they ask for later, until a repair arrives
whose sources are all later. -/
theorem C88_acked (gf : GF w) (dbg : Bool) (clk : Clock) (io : Bool) (acts more : List DAct) (d d' : NDec)
    (h : (NDec.init clk io).after gf dbg clk acts = .ok d) (h' : d.after gf dbg clk more = .ok d') (a : Ack)
    (ha : d.generateAck.out = d.out ++ [a]) (x : Nat) (hx : x ∈ a.ids) :
    (∃ a', d'.generateAck.out = d'.out ++ [a'] ∧ x ∈ a'.ids) ∨ ∃ p, .packet p ∈ more ∧ Passes p x := by
  obtain ⟨o, -, -⟩ := after_keep h (init_own clk io)
  obtain ⟨-, -, k⟩ := after_keep h' o
  obtain ⟨b, h1, h2⟩ := C24_names_all_held gf dbg clk io acts d h
  rw [ha] at h1
  cases List.append_cancel_left h1
  refine (k x (.inl ((h2 x).1 hx))).imp (fun hk => ?_) id
  obtain ⟨a', h3, h4⟩ := C24_names_all_held gf dbg clk io (acts ++ more) d' (by
    unfold NDec.after at h h' ⊢
    rw [List.foldlM_append, bind_ok_iff]; exact ⟨d, h, h'⟩)
  exact ⟨a', h3, (h4 _).2 hk⟩

/-- Two sources and a decoded one are acknowledged; a repair of later sources makes the decoder forget all. -/
example : ((NDec.init clk0 false).after gf8 true clk0 (give [0, 1, 3, 4] ++ [.genAck] ++ give [9] ++ [.genAck])).toOption.map
    (fun d => (d.out, d.det.handed)) = some ([⟨[0, 1, 2, 3], 4⟩, ⟨[], 1⟩], [0, 1, 3, 2]) := by decide +kernel

example : Passes (eight.getD 9 []) 3 := by
  have h : (readRepair (eight.getD 9 [])).toOption.map (fun p => p.1.ids) = some [4, 5, 6, 7] := by decide +kernel
  refine ⟨by decide +kernel, ?_⟩
  cases hr : readRepair (eight.getD 9 []) with
  | error e => rw [hr] at h; cases h
  | ok p =>
    rw [hr] at h
    simp only [Except.toOption, Option.map_some, Option.some.injEq] at h
    refine ⟨p.1, p.2, rfl, ?_⟩
    rw [h]; decide

/-! ## C89 -/

/-- **C89.** In any history, whatever the packets are: a source that was handed over, or that an ack names, is one that a packet
that arrived carried or listed. -/
theorem C89_named (gf : GF w) (dbg : Bool) (clk : Clock) (io : Bool) (acts : List DAct) (d : NDec)
    (h : (NDec.init clk io).after gf dbg clk acts = .ok d) (x : Nat)
    (hx : x ∈ d.det.handed ∨ d.det.Holds x ∨ ∃ a ∈ d.out, x ∈ a.ids) : ∃ p, .packet p ∈ acts ∧ NamedBy p x := by
  have key : ∀ acts' d', acts' <+: acts → (NDec.init clk io).after gf dbg clk acts' = .ok d' →
      Named (fun x => ∃ p, .packet p ∈ acts ∧ NamedBy p x) d'.det ∧
      OwnId d'.det ∧ ∀ ev ∈ d'.det.log, ∃ p, .packet p ∈ acts ∧ NamedBy p ev.id := by
    intro acts' d' hp h'
    refine nafter_mem_induct (P := fun e => Named (fun x => ∃ p, .packet p ∈ acts ∧ NamedBy p x) e.det ∧ OwnId e.det ∧
      ∀ ev ∈ e.det.log, ∃ p, .packet p ∈ acts ∧ NamedBy p ev.id) acts' ?_ _ d' ⟨?_, init_own clk io, ?_⟩ h'
    · rintro d1 d2 a ha ⟨p1, p2, p3⟩ hs
      have ha := hp.subset ha
      rcases act_det hs with e | ⟨p, n, rfl, ⟨s, h1, h2, h3⟩ | ⟨r, h1, h2, h3⟩⟩
      · rw [e]; exact ⟨p1, p2, p3⟩
      · have q1 := onSource_named h3 ⟨p, ha, .inl ⟨h1, s, n, h2, rfl⟩⟩ p1
        have g : Give (fun _ => False) _ _ := onSource_give h3
        refine ⟨q1, g.own p2, fun ev hev => ?_⟩
        obtain ⟨t, ht⟩ := g.pre
        rw [← ht, List.mem_append] at hev
        rcases hev with hev | hev
        · exact p3 ev hev
        · exact q1.src _ ((g.new p2 ev (by rw [← ht]; simpa using hev)).elim id False.elim)
      · have q1 := onRepair_named h3 (fun x hx => ⟨p, ha, .inr ⟨h1, r, n, h2, hx⟩⟩) p1
        obtain ⟨f, -, g1, -, g3, g4⟩ := onRepair_give h3 p2
        refine ⟨q1, g1, fun ev hev => ?_⟩
        obtain ⟨t, ht⟩ := g4
        rw [← ht, List.mem_append] at hev
        rcases hev with hev | hev
        · exact p3 ev hev
        · rcases g3 ev (by rw [← ht]; simpa using hev) with hk | ⟨-, hk⟩
          · exact q1.src _ hk
          · exact p1.src _ hk
    · exact ⟨fun _ hx => (by cases hx), fun _ hx => (by cases hx), fun _ hx => (by cases hx)⟩
    · rintro _ ⟨⟩
  rcases hx with hx | hx | ⟨a, ha, hx⟩
  · obtain ⟨ev, hev, rfl⟩ := List.mem_map.1 hx
    exact (key acts d (List.prefix_refl _) h).2.2 ev hev
  · exact (key acts d (List.prefix_refl _) h).1.src x hx
  · obtain ⟨pre, d', hp, h', hk⟩ := C24_acks_held gf dbg clk io acts d h a ha x hx
    exact (key pre d' hp h').1.src x hk

/-- Source 2 was decoded: the repair listed it. -/
example : ((NDec.init clk0 false).after gf8 true clk0 (give [0, 1, 3, 4])).toOption.map (fun d => d.det.handed) = some [0, 1, 3, 2] ∧
    (readRepair (eight.getD 4 [])).toOption.map (fun p => p.1.ids) = some [0, 1, 2, 3] := by decide +kernel

end Netcode
