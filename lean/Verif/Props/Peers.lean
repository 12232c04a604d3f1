import Verif.Spec.Peers
import Verif.Proofs.Tunnel
import Verif.Props.Tunnel

/-! # To whom the accelerator sends (C98) -/

namespace Netcode

theorem received_type {p : List Byte} (hp : p ≠ []) (junk : List Byte) : getPacketType (received p junk) = getPacketType p := by
  cases p with
  | nil => exact absurd rfl hp
  | cons b t =>
    have h : received (b :: t) junk = [b] ++ (t.take (bufferSize - 1) ++ junk.take (bufferSize - (b :: t).length)) := by
      simp [received, bufferSize]
    rw [h, getPacketType_append (by simp), show b :: t = [b] ++ t from rfl, getPacketType_append (by simp)]

theorem app_step {c : Cfg 8} {s s' : Side} {d : List Byte} (h : s.app c d = .ok s') : s'.dec = s.dec ∧ s'.seen = s.seen := by
  unfold Side.app at h
  split at h
  · split at h
    · cases h
    · cases h; exact ⟨rfl, rfl⟩
  · cases h; exact ⟨rfl, rfl⟩

theorem arrive_enc {c : Cfg 8} {s s' : Side} {p junk : List Byte} {i? : Option Nat} (h : s.arrive c p i? junk = .ok s') :
    s'.enc.out = s.enc.out ∧ (getPacketType p = .ok .ack → s'.dec = s.dec) := by
  unfold Side.arrive at h
  simp only at h
  by_cases hp : 0 < p.length
  · rw [if_pos hp] at h
    have hne : p ≠ [] := List.length_pos_iff.1 hp
    have ht := received_type hne junk
    split at h
    · cases h
    · cases h
    · rename_i e d n hd
      cases h
      unfold dispatch at hd
      rw [ht] at hd
      cases hg : getPacketType p with
      | error x => rw [hg] at hd; cases x <;> cases hd
      | ok ty =>
        rw [hg] at hd
        cases ty with
        | ack =>
          obtain ⟨⟨e', r⟩, k1, k2⟩ := bind_ok_iff.1 hd
          cases k2
          exact ⟨(notify_shrinks k1).2.2, fun _ => rfl⟩
        | _ =>
          obtain ⟨⟨e', r⟩, k1, k2⟩ := bind_ok_iff.1 hd
          cases k2
          exact ⟨rfl, fun h => by cases h⟩
  · rw [if_neg hp] at h
    cases h
    exact ⟨rfl, fun _ => rfl⟩

theorem notify_keeps_data {w : Nat} {gf : GF w} {dbg : Bool} {clk : Clock} {d d' : NDec} {p : List Byte} {r : Except CppErr Nat}
    (h : d.notify gf dbg clk p = .ok (d', r)) : d.data <+: d'.data := by
  unfold NDec.notify at h
  obtain ⟨_, _, h⟩ := bind_ok_iff.1 h
  cases ht : getPacketType p with
  | error x => rw [ht] at h; cases x <;> cases h; exact List.prefix_refl _
  | ok ty =>
    rw [ht] at h
    cases ty with
    | ack => cases h; exact List.prefix_refl _
    | repair =>
      simp only at h
      cases hr : readRepair p with
      | error x => rw [hr] at h; cases x <;> cases h; exact List.prefix_refl _
      | ok y =>
        rw [hr] at h
        obtain ⟨det', _, h⟩ := bind_ok_iff.1 h
        cases h
        exact ⟨_, (handleFold_step clk _ { d with nbRepairs := d.nbRepairs + 1, ackPackets := (d.ackPackets + 1) % 2 ^ 16, det := det' }).2.2.symm⟩
    | source =>
      simp only at h
      cases hr : readSource p with
      | error x => rw [hr] at h; cases x <;> cases h; exact List.prefix_refl _
      | ok y =>
        rw [hr] at h
        obtain ⟨det', _, h⟩ := bind_ok_iff.1 h
        cases h
        exact ⟨_, (handleFold_step clk _ { d with nbSources := d.nbSources + 1, ackPackets := (d.ackPackets + 1) % 2 ^ 16, det := det' }).2.2.symm⟩

theorem arrive_data {c : Cfg 8} {s s' : Side} {p junk : List Byte} {i? : Option Nat} (h : s.arrive c p i? junk = .ok s') :
    s.dec.data <+: s'.dec.data := by
  unfold Side.arrive at h
  simp only at h
  split at h
  · split at h
    · cases h
    · cases h
    · rename_i e d n hd
      cases h
      unfold dispatch at hd
      split at hd
      · cases hd
      · cases hd
      · obtain ⟨⟨e', r⟩, k1, k2⟩ := bind_ok_iff.1 hd
        cases k2
        exact List.prefix_refl _
      · obtain ⟨⟨e', r⟩, k1, k2⟩ := bind_ok_iff.1 hd
        cases k2
        exact notify_keeps_data k1
  · cases h
    exact List.prefix_refl _

theorem act_data {c : Cfg 8} {t : Tun} {a : TunAct} {s : Side} (h : t.act c a = .ok s) : (t.side a.at).dec.data <+: s.dec.data := by
  cases a with
  | app x d =>
    simp only [Tun.act] at h
    rw [(app_step h).1]
    exact List.prefix_refl _
  | packet x i junk =>
    simp only [Tun.act] at h
    split at h
    · cases h; exact List.prefix_refl _
    · exact arrive_data h
  | ack x i junk =>
    simp only [Tun.act] at h
    split at h
    · cases h; exact List.prefix_refl _
    · exact arrive_data h
  | timer x =>
    simp only [Tun.act, Except.ok.injEq] at h
    rw [← h]
    unfold Side.timer
    split <;> exact List.prefix_refl _

/-- What holds of the addresses in the states that are reached. -/
structure NInv (W : World) (T : Tun) (peer app : Bool → Addr) : Prop where
  p0 : peer false = W.tunnel true
  a1 : app true = W.app true
  seen : (T.side true).seen = true → peer true = W.tunnel false
  data : (T.side true).dec.data ≠ [] → peer true = W.tunnel false ∧ app false = W.app false
  out : ∀ x, (T.side x).enc.out ≠ [] → app false = W.app false

theorem mem_sent {x : Bool} {p a : Addr} {s s' : Side} {W : World} (h1 : s'.enc.out.length ≠ s.enc.out.length → p = W.tunnel !x)
    (h2 : s'.dec.out.length ≠ s.dec.out.length → p = W.tunnel !x) (h3 : s'.dec.data ≠ s.dec.data → a = W.app x) :
    ∀ m ∈ sentBetween x p a s s', m.to = W.right m := by
  intro m hm
  unfold sentBetween at hm
  rw [List.mem_append, List.mem_append] at hm
  rcases hm with (hm | hm) | hm
  · obtain ⟨y, hy, rfl⟩ := List.mem_map.1 hm
    simp only [World.right, if_true]
    refine h1 fun e => ?_
    rw [← e, List.drop_length] at hy
    cases hy
  · obtain ⟨y, hy, rfl⟩ := List.mem_map.1 hm
    simp only [World.right, if_true]
    refine h2 fun e => ?_
    rw [← e, List.drop_length] at hy
    cases hy
  · obtain ⟨y, hy, rfl⟩ := List.mem_map.1 hm
    simp only [World.right, Bool.false_eq_true, if_false]
    refine h3 fun e => ?_
    rw [← e, List.drop_length] at hy
    cases hy

theorem some_ne_nil {α : Type} {l : List α} {i : Nat} {x : α} (h : l[i]? = some x) : l ≠ [] := by
  rintro rfl; cases h

/-- A step among its own: all goes where it should, and the addresses stay right. -/
theorem net_step {c : Cfg 8} {W : World} {t : Net} (hi : NInv W t.tun t.peer t.app) {a : TunAct} (ha : Answers t a) {s : Side}
    (h : t.tun.act c a = .ok s) :
    (∀ m ∈ sentBetween a.at ((t.hears W (.own a)).peer a.at) ((t.hears W (.own a)).app a.at) (t.tun.side a.at) s, m.to = W.right m) ∧
    NInv W (t.tun.set a.at s) (t.hears W (.own a)).peer (t.hears W (.own a)).app := by
  have same : ∀ x, t.tun.set x (t.tun.side x) = t.tun := by intro x; cases x <;> rfl
  cases a with
  | app x d =>
    simp only [Tun.act] at h
    obtain ⟨h1, h2⟩ := app_step h
    simp only [TunAct.at, Net.hears]
    cases x with
    | false =>
      refine ⟨mem_sent (fun _ => hi.p0) (fun _ => hi.p0) (fun h => absurd (by rw [h1]) h), ⟨hi.p0, hi.a1, hi.seen, fun h => ⟨(hi.data h).1, rfl⟩, fun x h => rfl⟩⟩
    | true =>
      have h3 := hi.data ha
      refine ⟨mem_sent (fun _ => h3.1) (fun _ => h3.1) (fun h => absurd (by rw [h1]) h), ⟨hi.p0, rfl, fun _ => h3.1, fun _ => h3, fun _ _ => h3.2⟩⟩
  | packet x i junk =>
    simp only [Tun.act] at h
    simp only [TunAct.at, Net.hears]
    cases hp : (t.tun.side !x).enc.out[i]? with
    | none =>
      rw [hp] at h
      cases h
      simp only [Option.isSome_none, Bool.false_eq_true, if_false]
      rw [same]
      exact ⟨mem_sent (fun h => absurd rfl h) (fun h => absurd rfl h) (fun h => absurd rfl h), hi⟩
    | some p =>
      rw [hp] at h
      obtain ⟨h1, -⟩ := arrive_enc h
      simp only [Option.isSome_some, if_true]
      have h2 := hi.out _ (some_ne_nil hp)
      cases x with
      | false =>
        refine ⟨mem_sent (fun _ => rfl) (fun _ => rfl) (fun _ => h2), ⟨rfl, hi.a1, hi.seen, hi.data, fun _ _ => h2⟩⟩
      | true =>
        refine ⟨mem_sent (fun _ => rfl) (fun _ => rfl) (fun _ => hi.a1), ⟨hi.p0, hi.a1, fun _ => rfl, fun _ => ⟨rfl, h2⟩, fun _ _ => h2⟩⟩
  | ack x j junk =>
    simp only [Tun.act] at h
    simp only [TunAct.at, Net.hears]
    cases hp : (t.tun.side !x).dec.out[j]? with
    | none =>
      rw [hp] at h
      cases h
      simp only [Option.isSome_none, Bool.false_eq_true, if_false]
      rw [same]
      exact ⟨mem_sent (fun h => absurd rfl h) (fun h => absurd rfl h) (fun h => absurd rfl h), hi⟩
    | some k =>
      rw [hp] at h
      obtain ⟨h1, h2⟩ := arrive_enc h
      have h3 := h2 (getPacketType_ack k)
      simp only [Option.isSome_some, if_true]
      cases x with
      | false =>
        refine ⟨mem_sent (fun _ => rfl) (fun _ => rfl) (fun h => absurd (by rw [h3]) h), ⟨rfl, hi.a1, hi.seen, hi.data, fun x hx => ?_⟩⟩
        refine hi.out x fun e => hx ?_
        cases x
        · exact h1.trans e
        · exact e
      | true =>
        refine ⟨mem_sent (fun _ => rfl) (fun _ => rfl) (fun h => absurd (by rw [h3]) h), ⟨hi.p0, hi.a1, fun _ => rfl, fun hx => ?_, fun x hx => ?_⟩⟩
        · refine ⟨rfl, (hi.data fun e => hx ?_).2⟩
          exact (congrArg NDec.data h3).trans e
        · refine hi.out x fun e => hx ?_
          cases x
          · exact e
          · exact h1.trans e
  | timer x =>
    simp only [Tun.act, Except.ok.injEq] at h
    simp only [TunAct.at, Net.hears]
    have hs : s.enc = (t.tun.side x).enc ∧ s.dec.data = (t.tun.side x).dec.data ∧ s.seen = (t.tun.side x).seen ∧
        (s.dec.out ≠ (t.tun.side x).dec.out → (t.tun.side x).seen = true) := by
      rw [← h]
      unfold Side.timer
      split
      · rename_i h1; exact ⟨rfl, rfl, rfl, fun _ => h1⟩
      · exact ⟨rfl, rfl, rfl, fun h => absurd rfl h⟩
    obtain ⟨e1, e2, e3, e4⟩ := hs
    have hpx : s.dec.out ≠ (t.tun.side x).dec.out → t.peer x = W.tunnel !x := by
      intro h5
      cases x with
      | false => exact hi.p0
      | true => exact hi.seen (e4 h5)
    refine ⟨mem_sent (fun h => absurd (by rw [e1]) h) (fun h => hpx fun e => h (by rw [e])) (fun h => absurd e2 h), ⟨hi.p0, hi.a1, ?_, ?_, ?_⟩⟩
    · intro h5
      refine hi.seen ?_
      cases x
      · exact h5
      · exact e3 ▸ h5
    · intro h5
      refine hi.data ?_
      cases x
      · exact h5
      · exact fun e => h5 (e2.trans e)
    · intro y hy
      refine hi.out y fun e => hy ?_
      cases x <;> cases y <;> first | exact e | exact (congrArg Enc.out e1).trans e

theorem hears_same {W : World} (t : Net) (a : TunAct) : (t.hears W (.own a)).tun = t.tun ∧ (t.hears W (.own a)).log = t.log := by
  cases a with
  | app x d => exact ⟨rfl, rfl⟩
  | timer x => exact ⟨rfl, rfl⟩
  | packet x i j => unfold Net.hears; dsimp only; split <;> exact ⟨rfl, rfl⟩
  | ack x i j => unfold Net.hears; dsimp only; split <;> exact ⟨rfl, rfl⟩

theorem step_inv {c : Cfg 8} {W : World} {t t' : Net} {a : NetAct} (h : t.step c W a = .ok t') :
    ∃ s, ((t.hears W a).does c a).2 = .ok s ∧ t' = (t.hears W a).close ((t.hears W a).does c a).1 s ∧
      ∀ m ∈ sentBetween ((t.hears W a).does c a).1 ((t.hears W a).peer ((t.hears W a).does c a).1) ((t.hears W a).app ((t.hears W a).does c a).1)
        ((t.hears W a).tun.side ((t.hears W a).does c a).1) s, m.to.port ≠ 0 := by
  unfold Net.step at h
  simp only at h
  generalize hx : (t.hears W a).does c a = xr at h
  obtain ⟨x, r⟩ := xr
  simp only at h ⊢
  cases r with
  | error f => cases h
  | ok s =>
  have h1 : (Except.ok s : Except TStop Side) = .ok s := rfl
  have h2 := h
  simp only [bind, Except.bind] at h2
  by_cases hb : (((t.hears W a).tun.side x).fits s && (sentBetween x ((t.hears W a).peer x) ((t.hears W a).app x) ((t.hears W a).tun.side x) s).all
      (fun m => m.to.port ≠ 0)) = true
  · rw [if_pos hb] at h2
    cases h2
    refine ⟨s, h1, rfl, fun m hm => ?_⟩
    rw [Bool.and_eq_true, List.all_eq_true] at hb
    simpa using hb.2 m hm
  · rw [if_neg hb] at h2
    cases h2

theorem net_reach {c : Cfg 8} {W : World} {t : Net} (h : NetReach c W t) : NInv W t.tun t.peer t.app ∧ ∀ m ∈ t.log, m.to = W.right m := by
  induction h with
  | init => exact ⟨⟨rfl, rfl, fun h => (by cases h), fun h => absurd rfl h, fun x h => (by cases x <;> exact absurd rfl h)⟩, fun m h => (by cases h)⟩
  | @step t t' a h1 h2 h3 ih =>
    have htun := hears_same (W := W) t a
    simp only [Net.step, Net.does, htun.1] at h3
    cases hs : t.tun.act c a with
    | error x => rw [hs] at h3; cases h3
    | ok s =>
      rw [hs] at h3
      obtain ⟨i1, i2⟩ := net_step ih.1 h2 hs
      simp only [bind, Except.bind] at h3
      split at h3
      · cases h3
        simp only [Net.close, htun.1, htun.2]
        refine ⟨i2, fun m hm => ?_⟩
        rw [List.mem_append] at hm
        exact hm.elim (ih.2 m) (i1 m)
      · cases h3

/-- **C98.** Whatever the network does and whenever things happen: every packet and every ack goes to the other side of the tunnel, and every datum to the
application of the side. -/
theorem C98_right_partial {c : Cfg 8} {W : World} {t : Net} (h : NetReach c W t) :
    ∀ m ∈ t.log, m.to = if m.tunnel then W.tunnel (!m.side) else W.app m.side := (net_reach h).2

theorem log_step {x y : Bool} {p a : Addr} {s s' : Side} (h : s.dec.data <+: s'.dec.data) :
    ((sentBetween x p a s s').filter (fun m => m.side = y ∧ m.tunnel = false)).map Datagram.bytes =
      if x = y then s'.dec.data.drop s.dec.data.length else [] := by
  unfold sentBetween
  rw [List.filter_append, List.filter_append, List.filter_map, List.filter_map, List.filter_map]
  by_cases hx : x = y
  · subst hx
    rw [if_pos rfl]
    simp [Function.comp_def]
  · rw [if_neg hx]
    simp [Function.comp_def, hx]

/-- **C98.** What is sent to the application of a side is all that its decoder handed over, in the same order (`C59_data_partial`: that is what the other
application sent). -/
theorem C98_data_partial {c : Cfg 8} {W : World} {t : Net} (h : NetReach c W t) (y : Bool) :
    (t.log.filter (fun m => m.side = y ∧ m.tunnel = false)).map Datagram.bytes = (t.tun.side y).dec.data := by
  induction h with
  | init => cases y <;> rfl
  | @step t t' a h1 h2 h3 ih =>
    have htun := hears_same (W := W) t a
    obtain ⟨s, h4, rfl, -⟩ := step_inv h3
    simp only [Net.does, htun.1] at h4
    have hd := act_data h4
    simp only [Net.does, Net.close, htun.1, htun.2]
    rw [List.filter_append, List.map_append, ih, log_step hd]
    obtain ⟨z, hz⟩ := hd
    generalize a.at = x at hz ⊢
    by_cases hx : x = y
    · subst hx
      rw [if_pos rfl, ← hz, List.drop_left, hz]
      cases x <;> rfl
    · rw [if_neg hx, List.append_nil]
      cases x <;> cases y <;> first | rfl | exact absurd rfl hx

/-- **C98.** So addresses stop nothing: with them the two sides do exactly what they do as a tunnel (C59). -/
theorem C98_runs_partial {c : Cfg 8} {W : World} (hW : W.Ok) {t : Net} (h : NetReach c W t) {a : TunAct} (ha : Answers t a) (u : Tun) :
    (∃ t', t.step c W (.own a) = .ok t' ∧ t'.tun = u) ↔ t.tun.step c a = .ok u := by
  have hi := (net_reach h).1
  have htun := hears_same (W := W) t a
  simp only [Net.step, Net.does, htun.1, Tun.step]
  cases hs : t.tun.act c a with
  | error x =>
    simp only [bind, Except.bind]
    constructor
    · rintro ⟨t', h1, -⟩; cases h1
    · intro h1; cases h1
  | ok s =>
    obtain ⟨i1, -⟩ := net_step hi ha hs
    have hall : (sentBetween a.at ((t.hears W (.own a)).peer a.at) ((t.hears W (.own a)).app a.at) (t.tun.side a.at) s).all
        (fun m => m.to.port ≠ 0) = true := by
      rw [List.all_eq_true]
      intro m hm
      rw [i1 m hm, World.right]
      split
      · simpa using (hW _).1
      · simpa using (hW _).2
    simp only [bind, Except.bind, hall, Bool.and_true]
    split
    · simp only [pure, Except.pure, Except.ok.injEq]
      constructor
      · rintro ⟨t', rfl, h2⟩
        simpa only [Net.close, htun.1] using h2
      · intro h1
        exact ⟨_, rfl, by simpa only [Net.close, htun.1] using h1⟩
    · constructor
      · rintro ⟨t', h1, -⟩; cases h1
      · intro h1; cases h1

/-- **C98, the other way**: one datagram from anybody, be it empty, that arrives at the socket of the tunnel of a side: from then on its packets and acks go to
its sender, until the other side is heard again. -/
theorem C98_false_stranger {c : Cfg 8} {W : World} (t : Net) (x : Bool) (who : Addr) (junk : List Byte) :
    ∃ t', t.step c W (.stranger x true who [] junk) = .ok t' ∧ t'.log = t.log ∧
      ∀ a, (∃ d, a = .own (.app x d)) ∨ a = .own (.timer x) → ∀ t'', t'.step c W a = .ok t'' →
        ∀ m ∈ t''.log.drop t'.log.length, m.tunnel = true → m.to = who := by
  refine ⟨{ t with tun := t.tun.set x { t.tun.side x with seen := true }, peer := upd t.peer x who }, ?_, rfl, ?_⟩
  · have e : sentBetween x (upd t.peer x who x) (t.app x) (t.tun.side x) { t.tun.side x with seen := true } = [] := by
      simp [sentBetween]
    have ef : (t.tun.side x).fits { t.tun.side x with seen := true } = true := by
      simp [Side.fits]
    simp only [Net.step, Net.hears, Net.does, Side.arrive, List.length_nil, Nat.lt_irrefl, gt_iff_lt, if_false, bind, Except.bind, Net.close, e, ef,
      List.all_nil, Bool.and_self, if_true, List.append_nil]
    rfl
  · rintro a ha t'' h m hm htu
    obtain ⟨s, -, rfl, -⟩ := step_inv h
    have key : ∀ (y : Net), y.peer x = who → y.log = t.log → m ∈ (y.close x s).log.drop t.log.length → m.to = who := by
      intro y h1 h3 hm
      rw [Net.close, h3, List.drop_left, sentBetween, List.mem_append, List.mem_append] at hm
      rcases hm with (hm | hm) | hm <;> obtain ⟨z, -, rfl⟩ := List.mem_map.1 hm
      · exact h1
      · exact h1
      · cases htu
    rcases ha with ⟨d, rfl⟩ | rfl
    · exact key { t with tun := t.tun.set x { t.tun.side x with seen := true }, peer := upd t.peer x who, app := upd t.app x (W.app x) }
        (by simp [upd]) rfl hm
    · exact key { t with tun := t.tun.set x { t.tun.side x with seen := true }, peer := upd t.peer x who } (by simp [upd]) rfl hm

/-- **C98, the other way**: in the same way the answers go to whoever sent a datagram to the socket of the application last, so that two applications cannot share
a client. -/
theorem C98_false_two {c : Cfg 8} {W : World} (t : Net) (x : Bool) (who : Addr) (junk : List Byte) :
    ∃ t', t.step c W (.stranger x false who [] junk) = .ok t' ∧ t'.log = t.log ∧
      ∀ a, (∃ i j, a = .own (.packet x i j)) ∨ (∃ i j, a = .own (.ack x i j)) ∨ a = .own (.timer x) → ∀ t'', t'.step c W a = .ok t'' →
        ∀ m ∈ t''.log.drop t'.log.length, m.tunnel = false → m.to = who := by
  refine ⟨{ t with tun := t.tun.set x (t.tun.side x), app := upd t.app x who }, ?_, rfl, ?_⟩
  · have e : sentBetween x (t.peer x) (upd t.app x who x) (t.tun.side x) (t.tun.side x) = [] := by
      simp [sentBetween]
    have ef : (t.tun.side x).fits (t.tun.side x) = true := by
      simp [Side.fits]
    simp only [Net.step, Net.hears, Net.does, Side.app, List.length_nil, Nat.lt_irrefl, gt_iff_lt, if_false, bind, Except.bind, Net.close, e, ef,
      List.all_nil, Bool.and_self, if_true, List.append_nil]
    rfl
  · rintro a ha t'' h m hm htu
    obtain ⟨s, -, rfl, -⟩ := step_inv h
    have key : ∀ (y : Net) (z : Bool), z = x → y.app x = who → y.log = t.log → m ∈ (y.close z s).log.drop t.log.length → m.to = who := by
      rintro y z rfl h1 h3 hm
      rw [Net.close, h3, List.drop_left, sentBetween, List.mem_append, List.mem_append] at hm
      rcases hm with (hm | hm) | hm <;> obtain ⟨z, -, rfl⟩ := List.mem_map.1 hm
      · cases htu
      · cases htu
      · exact h1
    refine key _ _ ?_ ?_ ?_ hm
    · rcases ha with ⟨i, j, rfl⟩ | ⟨i, j, rfl⟩ | rfl <;> rfl
    · rcases ha with ⟨i, j, rfl⟩ | ⟨i, j, rfl⟩ | rfl <;> simp only [Net.hears] <;> (try split) <;> simp [upd]
    · rcases ha with ⟨i, j, rfl⟩ | ⟨i, j, rfl⟩ | rfl <;> simp only [Net.hears] <;> (try split) <;> rfl

/-- **C98, the other way**: if the application of the server speaks first, the server has nowhere to send the packet to, and stops. -/
theorem C98_false_eager {c : Cfg 8} {W : World} {d : List Byte} (h0 : 0 < d.length) :
    ∀ t', (Net.init c.clk W).step c W (.own (.app true d)) ≠ .ok t' := by
  intro t' h
  obtain ⟨s, h1, -, h3⟩ := step_inv h
  change Side.app c (Side.init c.clk) d = .ok s at h1
  unfold Side.app at h1
  rw [if_pos h0] at h1
  split at h1
  · cases h1
  · rename_i e he
    cases h1
    have hl : 0 < e.out.length := by
      obtain ⟨e1, e2, rfl, g2, g3, g4⟩ := commit_inv he
      rcases g2 with ⟨-, rfl⟩ | ⟨-, r, -, rfl⟩ <;> rcases g4 with ⟨-, rfl⟩ | ⟨-, r2, -, rfl⟩ <;>
        simp [Enc.sentSource, Enc.sentRepair]
    have hm : (⟨true, true, Addr.unset, (e.out[0]'hl).bytes⟩ : Datagram) ∈ sentBetween true Addr.unset (W.app true) (Side.init c.clk)
        { Side.init c.clk with enc := e, sent := (Side.init c.clk).sent ++ [d.take bufferSize] } := by
      unfold sentBetween
      rw [List.append_assoc, List.mem_append]
      left
      exact List.mem_map.2 ⟨e.out[0]'hl, List.getElem_mem hl, rfl⟩
    exact h3 _ hm rfl

/-! ## An example -/

/-- Client, server and both applications on four hosts. -/
def demoWorld : World := ⟨fun x => ⟨if x then 2 else 1, 7000⟩, fun x => ⟨if x then 4 else 3, 80⟩⟩

/-- The application of the client asks, that of the server answers, and acks go back and forth. -/
def demoNet : List TunAct := [.app false [1, 2], .packet true 0 [7], .app true [9], .packet false 0 [], .timer true, .ack false 0 [], .timer false]

instance (t : Net) (a : TunAct) : Decidable (Answers t a) := by
  unfold Answers
  split <;> infer_instance

/-- The run, if no step stops and the application of the server only answers. -/
def netRun (c : Cfg 8) (W : World) : Net → List TunAct → Option Net
  | t, [] => some t
  | t, a :: l =>
    if Answers t a then
      match t.step c W (.own a) with
      | .ok t' => netRun c W t' l
      | .error _ => none
    else none

theorem netRun_reach {c : Cfg 8} {W : World} (l : List TunAct) {t t' : Net} (h : NetReach c W t) (e : netRun c W t l = some t') : NetReach c W t' := by
  induction l generalizing t with
  | nil => cases e; exact h
  | cons a l ih =>
    rw [netRun] at e
    by_cases ha : Answers t a
    · rw [if_pos ha] at e
      cases h1 : t.step c W (.own a) with
      | error x => rw [h1] at e; cases e
      | ok t1 => rw [h1] at e; exact ih (.step h ha h1) e
    · rw [if_neg ha] at e; cases e

example : (netRun (cfg8 true) demoWorld (Net.init (cfg8 true).clk demoWorld) demoNet).map (·.log.map (fun m => (m.side, m.tunnel, m.to.host, m.bytes.length))) =
    some [(false, true, 2, 9), (true, false, 4, 2), (true, true, 1, 8), (false, false, 3, 1), (true, true, 1, 9), (false, true, 2, 9)] := by
  decide +kernel

example : demoWorld.Ok := by intro x; cases x <;> decide

end Netcode
