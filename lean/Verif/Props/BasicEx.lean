import Verif.Proofs.BasicEx

/-!
# C81: the basic examples
-/

set_option linter.unusedSectionVars false

namespace Netcode

variable {c : Cfg 8}

theorem cppRound_ok (hc : c.Ok) {ds : List (List Byte)} {d : List Byte} (hd : DataOk 8 d) (hn : ds.length + 1 < 2 ^ 16) {t : Basic} {s : Sys}
    (h : BasicOk c ds t s) : ∃ t' s', Basic.cppRound c t d = .ok t' ∧ BasicOk c (ds ++ [d]) t' s' ∧ t'.dec.data = ds ++ [d] := by
  obtain ⟨e, dc, n, s', h1, h2, h3, h4, h5⟩ := basic_step hc hd hn h
  refine ⟨_, s', ?_, h3, h4⟩
  unfold Basic.cppRound
  simp only [h1, h2, h4, h5, List.drop_left, List.flatten_cons, List.flatten_nil, List.append_nil, List.take_length, Nat.lt_irrefl, and_false,
    ne_eq, not_true_eq_false, if_false]

theorem cppRounds_ok (hc : c.Ok) (rest : List (List Byte)) {ds : List (List Byte)} (hd : ∀ d ∈ rest, DataOk 8 d)
    (hn : ds.length + rest.length < 2 ^ 16) {t : Basic} {s : Sys} (h : BasicOk c ds t s) (hdat : t.dec.data = ds) :
    ∃ t', rest.foldlM (Basic.cppRound c) t = .ok t' ∧ t'.dec.data = ds ++ rest := by
  induction rest generalizing ds t s with
  | nil => exact ⟨t, rfl, by simpa using hdat⟩
  | cons d rest ih =>
    rw [List.length_cons] at hn
    obtain ⟨t1, s1, h1, h2, h3⟩ := cppRound_ok hc (hd d List.mem_cons_self) (by omega) h
    obtain ⟨t', g1, g2⟩ := ih (ds := ds ++ [d]) (fun x hx => hd x (List.mem_cons_of_mem _ hx))
      (by rw [List.length_append, List.length_singleton]; omega) h2 h3
    refine ⟨t', ?_, by simpa using g2⟩
    rw [List.foldlM_cons, h1]
    exact g1

/-- **C81.** The C++ example, for any data in place of its two: it ends normally, no assertion fails, and the decoder hands over each datum,
intact and in order. -/
theorem C81_cpp (hc : c.Ok) (ds : List (List Byte)) (hd : ∀ d ∈ ds, DataOk 8 d) (hn : ds.length < 2 ^ 16) :
    ∃ t, cppBasic c ds = .ok t ∧ t.dec.data = ds := by
  obtain ⟨t, h1, -, h3, s, h4⟩ := basic_init c
  obtain ⟨t', g1, g2⟩ := cppRounds_ok hc ds hd (by simpa using hn) h4 h3
  refine ⟨t', ?_, g2⟩
  unfold cppBasic
  rw [h1]
  exact g1

/-- The two data of the program, and five more: the fifth comes with a repair. -/
example (dbg : Bool) : (cppBasic (cfg8 dbg) [[97, 98, 99], [100, 101, 102, 103]]).toOption.map (fun t => (t.dec.data, t.enc.out.length)) =
    some ([[97, 98, 99], [100, 101, 102, 103]], 2) := by revert dbg; decide +kernel
example (dbg : Bool) : (cppBasic (cfg8 dbg) [[1], [2, 3], [4], [5, 6, 7], [8]]).toOption.map (fun t => (t.dec.data, t.enc.out.length)) =
    some ([[1], [2, 3], [4], [5, 6, 7], [8]], 6) := by revert dbg; decide +kernel
example (dbg : Bool) : ∃ t, cppBasic (cfg8 dbg) [[1], [2, 3], [4], [5, 6, 7], [8]] = .ok t ∧ t.dec.data = [[1], [2, 3], [4], [5, 6, 7], [8]] :=
  C81_cpp (cfg8_ok dbg) _ (by decide) (by decide)

/-! ## The C program -/

theorem cRound_ok (hc : c.Ok) {ds : List (List Byte)} {d : List Byte} (hd : DataOk 8 d) (hl : d.length ≤ 332) (hds : ∀ x ∈ ds, x.length ≤ 332)
    (hn : ds.length + 1 < 2 ^ 16) {t : Basic} {s : Sys} (h : BasicOk c ds t s) :
    ∃ t' s', Basic.cRound c t d = .ok t' ∧ BasicOk c (ds ++ [d]) t' s' ∧ t'.dec.data = ds ++ [d] ∧ t'.sink = d := by
  obtain ⟨e, dc, n, s', h1, h2, h3, h4, h5⟩ := basic_step hc hd hn h
  have h6 : (emitted t.enc e).length ≤ 1024 := by
    rcases basic_size hc hn h h1 h3 with ⟨-, g⟩ | ⟨-, x, g1, -, g2⟩
    · omega
    · have : x.length ≤ 332 := by
        rcases List.mem_append.1 g1 with g | g
        · exact hds x g
        · rw [List.mem_singleton.1 g]; exact hl
      omega
  refine ⟨⟨e, dc, d⟩, s', ?_, ⟨h3.line, h3.enc, h3.dec, h3.com, h3.sys, h3.rate, h3.size, h3.reps, h3.hist, h3.all, h3.sent, h3.win, h3.errs⟩,
    h4, rfl⟩
  unfold Basic.cRound cPacket cContext
  rw [if_neg (by omega)]
  simp only [h1]
  rw [if_neg (by omega)]
  have h7 : cReceive t.sink (dc.data.drop t.dec.data.length) = .ok d := by
    rw [h4, h5, List.drop_left]
    unfold cReceive cContext
    rw [List.foldlM_cons, if_neg (by omega)]
    rfl
  simp only [h2, h7, ne_eq, not_true_eq_false, and_false, if_false]

theorem cRounds_ok (hc : c.Ok) (rest : List (List Byte)) {ds : List (List Byte)} (hd : ∀ d ∈ rest, DataOk 8 d ∧ d.length ≤ 332)
    (hds : ∀ x ∈ ds, x.length ≤ 332) (hn : ds.length + rest.length < 2 ^ 16) {t : Basic} {s : Sys} (h : BasicOk c ds t s)
    (hdat : t.dec.data = ds) :
    ∃ t' s', rest.foldlM (Basic.cRound c) t = .ok t' ∧ BasicOk c (ds ++ rest) t' s' ∧ t'.dec.data = ds ++ rest ∧
      (rest ≠ [] → some t'.sink = rest.getLast?) := by
  induction rest generalizing ds t s with
  | nil => exact ⟨t, s, rfl, by simpa using h, by simpa using hdat, fun hne => absurd rfl hne⟩
  | cons d rest ih =>
    rw [List.length_cons] at hn
    obtain ⟨q1, q2⟩ := hd d List.mem_cons_self
    obtain ⟨t1, s1, h1, h2, h3, h4⟩ := cRound_ok hc q1 q2 hds (by omega) h
    obtain ⟨t', s', g1, g2, g3, g4⟩ := ih (ds := ds ++ [d]) (fun x hx => hd x (List.mem_cons_of_mem _ hx))
      (by intro x hx; rcases List.mem_append.1 hx with g | g
          · exact hds x g
          · rw [List.mem_singleton.1 g]; exact q2)
      (by rw [List.length_append, List.length_singleton]; omega) h2 h3
    refine ⟨t', s', ?_, by simpa using g2, by simpa using g3, fun _ => ?_⟩
    · rw [List.foldlM_cons, h1]
      exact g1
    · cases rest with
      | nil => cases g1; rw [h4]; rfl
      | cons y r => rw [List.getLast?_cons_cons]; exact g4 (by simp)

/-- **C81.** The C example, for any data of at most 332 bytes in place of its two: it ends normally, it writes past the end of no buffer, no
assertion fails, and the decoder hands over each datum, intact and in order. -/
theorem C81_c_partial (hc : c.Ok) (ds : List (List Byte)) (hd : ∀ d ∈ ds, DataOk 8 d) (hl : ∀ d ∈ ds, d.length ≤ 332) (hn : ds.length < 2 ^ 16) :
    ∃ t, cBasic c ds = .ok t ∧ t.dec.data = ds := by
  obtain ⟨t, h1, -, h3, s, h4⟩ := basic_init c
  obtain ⟨t', s', g1, -, g2, -⟩ := cRounds_ok hc ds (fun d h => ⟨hd d h, hl d h⟩) (by simp) (by simpa using hn) h4 h3
  refine ⟨t', ?_, g2⟩
  unfold cBasic
  rw [h1]
  exact g1

example (dbg : Bool) : (cBasic (cfg8 dbg) [[97, 98, 99], [100, 101, 102, 103]]).toOption.map (fun t => (t.dec.data, t.sink)) =
    some ([[97, 98, 99], [100, 101, 102, 103]], [100, 101, 102, 103]) := by revert dbg; decide +kernel
example (dbg : Bool) : ∃ t, cBasic (cfg8 dbg) [[1], [2, 3], [4], [5, 6, 7], [8]] = .ok t ∧ t.dec.data = [[1], [2, 3], [4], [5, 6, 7], [8]] :=
  C81_c_partial (cfg8_ok dbg) _ (by decide) (by decide) (by decide)

/-- **C81 fails** for longer data: the first datum of more than 1017 bytes makes the program write past the end of its packet. -/
theorem C81_false_long (hc : c.Ok) (d : List Byte) (hd : DataOk 8 d) (hl : 1017 < d.length) : cBasic c [d] = .error (.fault (.ub .oobWrite)) := by
  obtain ⟨t, h1, -, h3, s, h4⟩ := basic_init c
  obtain ⟨e, dc, n, s', g1, g2, g3, g4, g5⟩ := basic_step hc (ds := []) hd (by decide) h4
  have h6 : (emitted t.enc e).length > 1024 := by
    rcases basic_size hc (by decide) h4 g1 g3 with ⟨-, g⟩ | ⟨-, x, -, -, g⟩ <;> omega
  unfold cBasic
  rw [h1]
  show (List.foldlM (Basic.cRound c) t [d]) = _
  rw [List.foldlM_cons]
  have : Basic.cRound c t d = .error (.fault (.ub .oobWrite)) := by
    unfold Basic.cRound cPacket cContext
    by_cases hx : d.length > 1024
    · rw [if_pos hx]
    · rw [if_neg hx]
      simp only [g1]
      rw [if_pos (Or.inr h6)]
  rw [this]
  rfl

/-- **C81 fails** when the fifth datum has 333 bytes, whatever the first four: with the fifth one comes a repair, the handler appends it to the
source, and both do not fit in the packet. -/
theorem C81_false_fifth (hc : c.Ok) (ds : List (List Byte)) (hn : ds.length = 4) (hd : ∀ d ∈ ds, 0 < d.length ∧ d.length ≤ 332) (d : List Byte)
    (hl : d.length = 333) : cBasic c (ds ++ [d]) = .error (.fault (.ub .oobWrite)) := by
  obtain ⟨t, h1, -, h3, s, h4⟩ := basic_init c
  obtain ⟨t', s', g1, g2, g3, -⟩ := cRounds_ok hc ds
    (fun d h => ⟨⟨(hd d h).1, by have := (hd d h).2; omega, by omega⟩, (hd d h).2⟩) (by simp) (by simp [hn]) h4 h3
  rw [List.nil_append] at g2 g3
  obtain ⟨e, dc, n, s'', k1, k2, k3, k4, k5⟩ := basic_step hc (d := d) ⟨by omega, by omega, by omega⟩ (by omega) g2
  have h6 : (emitted t'.enc e).length > 1024 := by
    rcases basic_size hc (by omega) g2 k1 k3 with ⟨g, -⟩ | ⟨-, x, -, g, g'⟩
    · rw [hn] at g; exact absurd rfl g
    · omega
  unfold cBasic
  rw [h1]
  show (List.foldlM (Basic.cRound c) t (ds ++ [d])) = _
  rw [List.foldlM_append, g1]
  show (List.foldlM (Basic.cRound c) t' [d]) = _
  rw [List.foldlM_cons]
  have : Basic.cRound c t' d = .error (.fault (.ub .oobWrite)) := by
    unfold Basic.cRound cPacket cContext
    rw [if_neg (by omega)]
    simp only [k1]
    rw [if_pos (Or.inr h6)]
  rw [this]
  rfl

example (dbg : Bool) : cBasic (cfg8 dbg) [List.replicate 1018 7] = .error (.fault (.ub .oobWrite)) :=
  C81_false_long (cfg8_ok dbg) _ (by decide +kernel) (by decide +kernel)
example (dbg : Bool) : cBasic (cfg8 dbg) ([[1], [2], [3], [4]] ++ [List.replicate 333 7]) = .error (.fault (.ub .oobWrite)) :=
  C81_false_fifth (cfg8_ok dbg) _ rfl (by decide) _ List.length_replicate

end Netcode
