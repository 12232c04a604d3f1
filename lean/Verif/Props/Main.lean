import Verif.Model.Main
import Verif.Spec.Main
import Verif.Props.Tools

/-! # The command lines of the programs (C97) -/

namespace Netcode

theorem isDigit_iff (b : Byte) : isDigit b = true ↔ 48 ≤ b.toNat ∧ b.toNat ≤ 57 := by
  simp [isDigit, BitVec.le_def]

theorem digitsValue_eq (s : List Byte) (v : Nat) (h : ∀ b ∈ s, 48 ≤ b.toNat ∧ b.toNat ≤ 57) :
    digitsValue v s = s.foldl (fun v b => 10 * v + (b.toNat - 48)) v := by
  induction s generalizing v with
  | nil => rfl
  | cons b t ih =>
    rw [digitsValue, if_pos ((isDigit_iff b).2 (h b (by simp))), List.foldl_cons]
    exact ih _ fun x hx => h x (by simp [hx])

theorem atoi_dec {s : List Byte} {n : Nat} (h : IsDec s n) (hn : n < 2 ^ 31) : atoi s = .ok (n : Int) := by
  obtain ⟨h1, h2, h3⟩ := h
  cases s with
  | nil => exact absurd rfl h1
  | cons b t =>
    have hb := h2 b (by simp)
    have hs : isSpace b = false := by
      have h4 : ∀ b : BitVec 8, 48 ≤ b.toNat ∧ b.toNat ≤ 57 → isSpace b = false := by decide
      exact h4 b hb
    have h45 : b ≠ 45#8 := by rintro rfl; simp at hb
    have h43 : b ≠ 43#8 := by rintro rfl; simp at hb
    unfold atoi
    rw [List.dropWhile_cons, hs]
    simp only [Bool.false_eq_true, if_false]
    rw [signedValue, if_neg h45, if_neg h43, digitsValue_eq _ _ h2, ← h3, if_pos (by omega)]

theorem atoPort_dec {s : List Byte} {n : Nat} (h : IsDec s n) (hn : n < 2 ^ 31) : atoPort s = .ok (n % 2 ^ 16) := by
  unfold atoPort
  rw [atoi_dec h hn]
  simp only [bind, Except.bind, pure, Except.pure]
  congr 1

theorem atoUnsigned_dec {s : List Byte} {n : Nat} (h : IsDec s n) (hn : n < 2 ^ 31) : atoUnsigned s = .ok n := by
  unfold atoUnsigned
  rw [atoi_dec h hn]
  simp only [bind, Except.bind, pure, Except.pure]
  congr 1
  omega

theorem atoi_big {s : List Byte} {n : Nat} (h : IsDec s n) (hn : 2 ^ 31 ≤ n) : atoi s = .error (.ub .overflow) := by
  obtain ⟨h1, h2, h3⟩ := h
  cases s with
  | nil => exact absurd rfl h1
  | cons b t =>
    have hb := h2 b (by simp)
    have hs : isSpace b = false := by
      have h4 : ∀ b : BitVec 8, 48 ≤ b.toNat ∧ b.toNat ≤ 57 → isSpace b = false := by decide
      exact h4 b hb
    have h45 : b ≠ 45#8 := by rintro rfl; simp at hb
    have h43 : b ≠ 43#8 := by rintro rfl; simp at hb
    unfold atoi
    rw [List.dropWhile_cons, hs]
    simp only [Bool.false_eq_true, if_false]
    rw [signedValue, if_neg h45, if_neg h43, digitsValue_eq _ _ h2, ← h3, if_neg (by omega)]

/-- With `n` one more than the length of `t`, `strncmp` compares the whole strings. -/
theorem strncmpEq_iff (s t : List Byte) (hs : 0#8 ∉ s) (ht : 0#8 ∉ t) : strncmpEq (t.length + 1) s t = true ↔ s = t := by
  induction t generalizing s with
  | nil =>
    cases s with
    | nil => simp [strncmpEq]
    | cons a s =>
      have : a ≠ 0#8 := fun e => hs (by simp [e])
      simp [strncmpEq, this]
  | cons b t ih =>
    have hb : b ≠ 0#8 := fun e => ht (by simp [e])
    cases s with
    | nil => simp [strncmpEq, hb]
    | cons a s =>
      have ha : a ≠ 0#8 := fun e => hs (by simp [e])
      rw [List.length_cons, strncmpEq, Bool.and_eq_true, Bool.or_eq_true, ih s (fun h => hs (by simp [h])) (fun h => ht (by simp [h]))]
      simp [ha]

theorem cmp_server (s : List Byte) (hs : 0#8 ∉ s) : strncmpEq 7 s (chars ['s', 'e', 'r', 'v', 'e', 'r']) = decide (s = word "server") := by
  have := strncmpEq_iff s (chars ['s', 'e', 'r', 'v', 'e', 'r']) hs (by decide)
  rw [Bool.eq_iff_iff, decide_eq_true_eq]
  exact this

theorem cmp_client (s : List Byte) (hs : 0#8 ∉ s) : strncmpEq 7 s (chars ['c', 'l', 'i', 'e', 'n', 't']) = decide (s = word "client") := by
  have := strncmpEq_iff s (chars ['c', 'l', 'i', 'e', 'n', 't']) hs (by decide)
  rw [Bool.eq_iff_iff, decide_eq_true_eq]
  exact this

theorem cmp_burst (s : List Byte) (hs : 0#8 ∉ s) : strncmpEq 6 s (chars ['b', 'u', 'r', 's', 't']) = decide (s = word "burst") := by
  have := strncmpEq_iff s (chars ['b', 'u', 'r', 's', 't']) hs (by decide)
  rw [Bool.eq_iff_iff, decide_eq_true_eq]
  exact this

theorem cmp_uniform (s : List Byte) (hs : 0#8 ∉ s) :
    strncmpEq 8 s (chars ['u', 'n', 'i', 'f', 'o', 'r', 'm']) = decide (s = word "uniform") := by
  have := strncmpEq_iff s (chars ['u', 'n', 'i', 'f', 'o', 'r', 'm']) hs (by decide)
  rw [Bool.eq_iff_iff, decide_eq_true_eq]
  exact this

theorem cmp_file (s : List Byte) (hs : 0#8 ∉ s) : strncmpEq 5 s (chars ['f', 'i', 'l', 'e']) = decide (s = word "file") := by
  have := strncmpEq_iff s (chars ['f', 'i', 'l', 'e']) hs (by decide)
  rw [Bool.eq_iff_iff, decide_eq_true_eq]
  exact this

/-- **C97.** The accelerator is a server or a client as its first argument says, and listens on the port that its second argument says;
with another first argument, or another number of arguments, it shows its usage. -/
theorem C97_accelerator_partial (argv : List (List Byte)) (hz : ∀ s ∈ argv, 0#8 ∉ s) :
    (∀ prog role port peer service n, argv = [prog, role, port, peer, service] → IsDec port n → n < 65536 →
      accMain argv = .ok (if role = word "server" then .go ⟨true, n, peer, service⟩
        else if role = word "client" then .go ⟨false, n, peer, service⟩ else .usage)) ∧
    (argv.length ≠ 5 → accMain argv = .ok .usage) := by
  constructor
  · rintro prog role port peer service n rfl hp hn
    have hr : 0#8 ∉ role := hz role (by simp)
    unfold accMain
    rw [if_neg (by simp)]
    simp only [argAt, List.getElem?_cons_succ, List.getElem?_cons_zero, bind, Except.bind, cmp_server _ hr, cmp_client _ hr, decide_eq_true_eq,
      atoPort_dec hp (by omega), Nat.mod_eq_of_lt (show n < 2 ^ 16 by omega)]
    split
    · rfl
    · split <;> rfl
  · intro h
    unfold accMain
    rw [if_pos h]; rfl

example : accMain [word "accelerator", word "server", word "4000", word "127.0.0.1", word "5000"] =
    .ok (.go ⟨true, 4000, word "127.0.0.1", word "5000"⟩) := by decide +kernel

example : IsDec (word "4000") 4000 := by unfold IsDec; decide +kernel

/-- **C97.** The sender, the receiver and the forwarder listen on the port that their first argument says. -/
theorem C97_oneway_partial (argv : List (List Byte)) :
    (∀ prog port peer service n, argv = [prog, port, peer, service] → IsDec port n → n < 65536 →
      wayMain argv = .ok (.go ⟨n, peer, service⟩)) ∧
    (argv.length ≠ 4 → wayMain argv = .ok .usage) := by
  constructor
  · rintro prog port peer service n rfl hp hn
    unfold wayMain
    rw [if_neg (by simp)]
    simp only [argAt, List.getElem?_cons_succ, List.getElem?_cons_zero, bind, Except.bind,
      atoPort_dec hp (by omega), Nat.mod_eq_of_lt (show n < 2 ^ 16 by omega)]
    rfl
  · intro h
    unfold wayMain
    rw [if_pos h]; rfl

/-- **C97.** The proxy with bursts, given all four percentages. -/
theorem C97_burst_partial (dbg : Bool) {prog port peer service g b g' b' : List Byte} {n ng nb ng' nb' : Nat} (hp : IsDec port n) (hn : n < 65536)
    (h1 : IsDec g ng) (h2 : IsDec b nb) (h3 : IsDec g' ng') (h4 : IsDec b' nb') (hl : ng ≤ 100 ∧ nb ≤ 100 ∧ ng' ≤ 100 ∧ nb' ≤ 100) :
    proxyMain dbg [prog, port, peer, service, word "burst", g, b, g', b'] = .ok (.go (⟨n, peer, service⟩, .burst ng nb ng' nb')) := by
  unfold proxyMain
  rw [if_neg (by simp)]
  simp only [argAt, List.getElem?_cons_succ, List.getElem?_cons_zero, bind, Except.bind, cmp_burst (word "burst") (by decide), decide_true, if_true,
    atoPort_dec hp (by omega), Nat.mod_eq_of_lt (show n < 2 ^ 16 by omega), atoUnsigned_dec h1 (by omega), atoUnsigned_dec h2 (by omega),
    atoUnsigned_dec h3 (by omega), atoUnsigned_dec h4 (by omega)]
  rfl

/-- **C97.** The proxy with a percentage from 1 to 99 for each direction: as many of the numbers from 1 to 100 make it lose a packet. -/
theorem C97_uniform_partial (dbg : Bool) {prog port peer service p q : List Byte} {n np nq : Nat} (hp : IsDec port n) (hn : n < 65536)
    (h1 : IsDec p np) (h2 : IsDec q nq) (hl : 0 < np ∧ np < 100 ∧ 0 < nq ∧ nq < 100) : ∃ t t',
    proxyMain dbg [prog, port, peer, service, word "uniform", p, q] = .ok (.go (⟨n, peer, service⟩, .uniform t t')) ∧
    (List.range' 1 100).countP (fun draw => uniformLoss t draw) = np ∧ (List.range' 1 100).countP (fun draw => uniformLoss t' draw) = nq := by
  refine ⟨uniformThreshold np, uniformThreshold nq, ?_, C71_percentage np (by omega), C71_percentage nq (by omega)⟩
  have e1 : uniformNew dbg (uniformThreshold np) = .ok () := by
    cases dbg
    · rfl
    · exact (C71_false_uniform np (by omega)).2 ⟨hl.1, hl.2.1⟩
  have e2 : uniformNew dbg (uniformThreshold nq) = .ok () := by
    cases dbg
    · rfl
    · exact (C71_false_uniform nq (by omega)).2 ⟨hl.2.2.1, hl.2.2.2⟩
  unfold proxyMain
  rw [if_neg (by simp)]
  simp only [argAt, List.getElem?_cons_succ, List.getElem?_cons_zero, bind, Except.bind, cmp_burst (word "uniform") (by decide),
    cmp_uniform (word "uniform") (by decide), decide_true, if_true, show decide (word "uniform" = word "burst") = false by decide,
    atoPort_dec hp (by omega), Nat.mod_eq_of_lt (show n < 2 ^ 16 by omega), atoUnsigned_dec h1 (by omega), atoUnsigned_dec h2 (by omega), e1, e2]
  rfl

/-- **C97.** The proxy with files. -/
theorem C97_file_partial (dbg : Bool) {prog port peer service f g : List Byte} {n : Nat} (hp : IsDec port n) (hn : n < 65536) :
    proxyMain dbg [prog, port, peer, service, word "file", f, g] = .ok (.go (⟨n, peer, service⟩, .file f g)) := by
  unfold proxyMain
  rw [if_neg (by simp)]
  simp only [argAt, List.getElem?_cons_succ, List.getElem?_cons_zero, bind, Except.bind, cmp_burst (word "file") (by decide),
    cmp_uniform (word "file") (by decide), cmp_file (word "file") (by decide), decide_true, if_true,
    show decide (word "file" = word "burst") = false by decide, show decide (word "file" = word "uniform") = false by decide,
    atoPort_dec hp (by omega), Nat.mod_eq_of_lt (show n < 2 ^ 16 by omega)]
  rfl

/-- **C97.** With another kind of loss the proxy shows its usage. -/
theorem C97_kind_partial (dbg : Bool) {prog port peer service kind a b : List Byte} {n : Nat} (hp : IsDec port n) (hn : n < 65536) (hz : 0#8 ∉ kind)
    (h1 : kind ≠ word "burst") (h2 : kind ≠ word "uniform") (h3 : kind ≠ word "file") :
    proxyMain dbg [prog, port, peer, service, kind, a, b] = .ok .usage := by
  unfold proxyMain
  rw [if_neg (by simp)]
  simp only [argAt, List.getElem?_cons_succ, List.getElem?_cons_zero, bind, Except.bind, cmp_burst kind hz,
    cmp_uniform kind hz, cmp_file kind hz, decide_eq_true_eq, if_neg h1, if_neg h2, if_neg h3, atoPort_dec hp (by omega)]
  rfl

example : proxyMain true [word "lossy_proxy", word "4000", word "localhost", word "5000", word "uniform", word "20", word "10"] =
    .ok (.go (⟨4000, word "localhost", word "5000"⟩, .uniform 80 90)) := by decide +kernel

/-- **C97, the other way**: a port number too large for 16 bits is taken for another one, and the behaviour is undefined if it is too large for an
`int`. -/
theorem C97_false_port {prog port peer service : List Byte} {n : Nat} (hp : IsDec port n) :
    (n < 2 ^ 31 → wayMain [prog, port, peer, service] = .ok (.go ⟨n % 65536, peer, service⟩)) ∧
    (2 ^ 31 ≤ n → wayMain [prog, port, peer, service] = .error (.ub .overflow)) := by
  constructor
  · intro hn
    unfold wayMain
    rw [if_neg (by simp)]
    simp only [argAt, List.getElem?_cons_succ, List.getElem?_cons_zero, bind, Except.bind, atoPort_dec hp hn]
    rfl
  · intro hn
    unfold wayMain
    rw [if_neg (by simp)]
    simp only [argAt, List.getElem?_cons_succ, List.getElem?_cons_zero, bind, Except.bind, atoPort, atoi_big hp hn]

/-- **C97, the other way**: a port that begins with a letter, or that is empty, is taken for port 0, on which the system chooses the port: the
program listens where nobody knows. -/
theorem C97_false_word {prog port peer service : List Byte} (hp : ∀ b ∈ port.head?, 58 ≤ b.toNat) :
    wayMain [prog, port, peer, service] = .ok (.go ⟨0, peer, service⟩) := by
  have : atoi port = .ok 0 := by
    cases port with
    | nil => rfl
    | cons b t =>
      have h4 : ∀ b : BitVec 8, 58 ≤ b.toNat → isSpace b = false ∧ isDigit b = false ∧ b ≠ 43#8 ∧ b ≠ 45#8 := by decide
      obtain ⟨h1, h2, h3, h4⟩ := h4 b (hp b rfl)
      unfold atoi
      rw [List.dropWhile_cons, h1]
      simp only [Bool.false_eq_true, if_false]
      have e : signedValue (b :: t) = 0 := by simp [signedValue, h4, h3, digitsValue, h2]
      rw [e]; rfl
  unfold wayMain
  rw [if_neg (by simp)]
  simp only [argAt, List.getElem?_cons_succ, List.getElem?_cons_zero, bind, Except.bind, atoPort, this]
  rfl

example : wayMain [word "sender", word "http", word "localhost", word "5000"] = .ok (.go ⟨0, word "localhost", word "5000"⟩) := by decide +kernel

/-- **C97, the other way**: with bursts, the percentages of the other direction cannot be left out, although seven arguments are accepted: the proxy reads
a number from a null pointer. -/
theorem C97_false_burst (dbg : Bool) {prog port peer service g b : List Byte} {n ng nb : Nat} (hp : IsDec port n) (hn : n < 65536)
    (h1 : IsDec g ng) (h2 : IsDec b nb) (hl : ng ≤ 100 ∧ nb ≤ 100) :
    proxyMain dbg [prog, port, peer, service, word "burst", g, b] = .error (.ub .oobRead) := by
  unfold proxyMain
  rw [if_neg (by simp)]
  simp only [argAt, List.getElem?_cons_succ, List.getElem?_cons_zero, List.getElem?_nil, bind, Except.bind, cmp_burst (word "burst") (by decide),
    decide_true, if_true, atoPort_dec hp (by omega), atoUnsigned_dec h1 (by omega), atoUnsigned_dec h2 (by omega)]

/-- **C97, the other way**: without assertions, a percentage above 100 makes the proxy lose nothing at all. -/
theorem C97_false_percent {prog port peer service p q : List Byte} {n np nq : Nat} (hp : IsDec port n) (hn : n < 65536)
    (h1 : IsDec p np) (h2 : IsDec q nq) (hl : 100 < np ∧ np ≤ 2 ^ 31 - 1 ∧ nq < 2 ^ 31) : ∃ t t',
    proxyMain false [prog, port, peer, service, word "uniform", p, q] = .ok (.go (⟨n, peer, service⟩, .uniform t t')) ∧
    ∀ draw ≤ 100, uniformLoss t draw = false := by
  refine ⟨uniformThreshold np, uniformThreshold nq, ?_, ?_⟩
  · unfold proxyMain
    rw [if_neg (by simp)]
    simp only [argAt, List.getElem?_cons_succ, List.getElem?_cons_zero, bind, Except.bind, cmp_burst (word "uniform") (by decide),
      cmp_uniform (word "uniform") (by decide), decide_true, if_true, show decide (word "uniform" = word "burst") = false by decide,
      atoPort_dec hp (by omega), Nat.mod_eq_of_lt (show n < 2 ^ 16 by omega), atoUnsigned_dec h1 (by omega), atoUnsigned_dec h2 (by omega),
      uniformNew, cassert]
    rfl
  · intro draw hd
    unfold uniformLoss uniformThreshold
    rw [decide_eq_false_iff_not]
    omega

/-- A minus sign and digits. -/
theorem atoi_neg {s : List Byte} {n : Nat} (h : IsDec s n) (hn : n ≤ 2 ^ 31) : atoi (45#8 :: s) = .ok (-(n : Int)) := by
  obtain ⟨_, h2, h3⟩ := h
  unfold atoi
  rw [List.dropWhile_cons, show isSpace 45#8 = false by decide]
  simp only [Bool.false_eq_true, if_false]
  rw [signedValue, if_pos rfl, digitsValue_eq _ _ h2, ← h3, if_pos (by omega)]

theorem atoUnsigned_neg {s : List Byte} {n : Nat} (h : IsDec s n) (hn : n ≤ 2 ^ 31) (h0 : 0 < n) : atoUnsigned (45#8 :: s) = .ok (2 ^ 32 - n) := by
  unfold atoUnsigned
  rw [atoi_neg h hn]
  simp only [bind, Except.bind, pure, Except.pure]
  congr 1
  omega

theorem atoPort_neg {s : List Byte} {n : Nat} (h : IsDec s n) (hn : n ≤ 65536) (h0 : 0 < n) : atoPort (45#8 :: s) = .ok (65536 - n) := by
  unfold atoPort
  rw [atoi_neg h (by omega)]
  simp only [bind, Except.bind, pure, Except.pure]
  congr 1
  omega

/-- **C97, the other way**: a negative number is no mistake either.  As a port it is counted down from 65536.  The proxy with bursts never
leaves a state for which it is given a negative percentage, whatever number is drawn; without assertions, a negative percentage
for `uniform` loses nothing at all. -/
theorem C97_false_negative {prog port peer service p q : List Byte} {n np nq : Nat} (hp : IsDec port n) (hn : 0 < n ∧ n < 65536)
    (h1 : IsDec p np) (h2 : IsDec q nq) (hl : 0 < np ∧ np ≤ 2 ^ 31 ∧ 0 < nq ∧ nq ≤ 2 ^ 31) :
    wayMain [prog, 45#8 :: port, peer, service] = .ok (.go ⟨65536 - n, peer, service⟩) ∧
    (∃ a b, (∀ dbg, proxyMain dbg [prog, port, peer, service, word "burst", 45#8 :: p, 45#8 :: q, 45#8 :: p, 45#8 :: q] =
        .ok (.go (⟨n, peer, service⟩, .burst a b a b))) ∧
      ∀ good, ∀ draw ≤ 100, burstLoss a b good draw = (!good, good)) ∧
    ∃ t t', proxyMain false [prog, port, peer, service, word "uniform", 45#8 :: p, 45#8 :: q] = .ok (.go (⟨n, peer, service⟩, .uniform t t')) ∧
      ∀ draw ≤ 100, uniformLoss t draw = false ∧ uniformLoss t' draw = false := by
  refine ⟨?_, ⟨2 ^ 32 - np, 2 ^ 32 - nq, ?_, ?_⟩, uniformThreshold (2 ^ 32 - np), uniformThreshold (2 ^ 32 - nq), ?_, ?_⟩
  · unfold wayMain
    rw [if_neg (by simp)]
    simp only [argAt, List.getElem?_cons_succ, List.getElem?_cons_zero, bind, Except.bind, atoPort_neg hp (by omega) hn.1]
    rfl
  · intro dbg
    unfold proxyMain
    rw [if_neg (by simp)]
    simp only [argAt, List.getElem?_cons_succ, List.getElem?_cons_zero, bind, Except.bind, cmp_burst (word "burst") (by decide), decide_true, if_true,
      atoPort_dec hp (by omega), Nat.mod_eq_of_lt (show n < 2 ^ 16 by omega), atoUnsigned_neg h1 hl.2.1 hl.1, atoUnsigned_neg h2 hl.2.2.2 hl.2.2.1]
    rfl
  · intro good draw hd
    cases good <;> simp [burstLoss] <;> omega
  · unfold proxyMain
    rw [if_neg (by simp)]
    simp only [argAt, List.getElem?_cons_succ, List.getElem?_cons_zero, bind, Except.bind, cmp_burst (word "uniform") (by decide),
      cmp_uniform (word "uniform") (by decide), decide_true, if_true, show decide (word "uniform" = word "burst") = false by decide,
      atoPort_dec hp (by omega), Nat.mod_eq_of_lt (show n < 2 ^ 16 by omega), atoUnsigned_neg h1 hl.2.1 hl.1, atoUnsigned_neg h2 hl.2.2.2 hl.2.2.1,
      uniformNew, cassert]
    rfl
  · intro draw hd
    unfold uniformLoss uniformThreshold
    rw [decide_eq_false_iff_not, decide_eq_false_iff_not]
    omega

example : proxyMain false [word "lossy_proxy", word "4000", word "localhost", word "5000", word "uniform", word "-20", word "-10"] =
    .ok (.go (⟨4000, word "localhost", word "5000"⟩, .uniform 120 110)) := by decide +kernel
example : IsDec (word "20") 20 := by unfold IsDec; decide +kernel

theorem dropWhile_blanks (sp s : List Byte) (h : ∀ b ∈ sp, b.toNat = 32 ∨ 9 ≤ b.toNat ∧ b.toNat ≤ 13) :
    (sp ++ s).dropWhile isSpace = s.dropWhile isSpace := by
  induction sp with
  | nil => rfl
  | cons b t ih =>
    have h4 : ∀ b : BitVec 8, (b.toNat = 32 ∨ 9 ≤ b.toNat ∧ b.toNat ≤ 13) → isSpace b = true := by decide
    rw [List.cons_append, List.dropWhile_cons_of_pos (h4 b (h b (by simp)))]
    exact ih fun b hb => h b (by simp [hb])

/-- **C97.** Blanks and a plus sign in front of a port make no difference. -/
theorem C97_blanks_partial {prog port peer service sp : List Byte} {n : Nat} (hp : IsDec port n) (hn : n < 65536)
    (hsp : ∀ b ∈ sp, b.toNat = 32 ∨ 9 ≤ b.toNat ∧ b.toNat ≤ 13) :
    wayMain [prog, sp ++ port, peer, service] = .ok (.go ⟨n, peer, service⟩) ∧
    wayMain [prog, sp ++ 43#8 :: port, peer, service] = .ok (.go ⟨n, peer, service⟩) := by
  have e1 : atoi (sp ++ port) = .ok (n : Int) := by
    rw [← atoi_dec hp (by omega)]
    unfold atoi
    rw [dropWhile_blanks sp port hsp]
  have e2 : atoi (sp ++ 43#8 :: port) = .ok (n : Int) := by
    obtain ⟨_, h2, h3⟩ := hp
    unfold atoi
    rw [dropWhile_blanks sp _ hsp, List.dropWhile_cons, show isSpace 43#8 = false by decide]
    simp only [Bool.false_eq_true, if_false]
    rw [signedValue, if_neg (show (43#8 : Byte) ≠ 45#8 by decide), if_pos rfl, digitsValue_eq _ _ h2, ← h3, if_pos (by omega)]
  have e3 : ((n : Int) % 2 ^ 16).toNat = n := by omega
  constructor
  · unfold wayMain
    rw [if_neg (by simp)]
    simp only [argAt, List.getElem?_cons_succ, List.getElem?_cons_zero, bind, Except.bind, atoPort, e1, pure, Except.pure, e3]
  · unfold wayMain
    rw [if_neg (by simp)]
    simp only [argAt, List.getElem?_cons_succ, List.getElem?_cons_zero, bind, Except.bind, atoPort, e2, pure, Except.pure, e3]

example : wayMain [word "sender", word " +4000", word "localhost", word "5000"] = .ok (.go ⟨4000, word "localhost", word "5000"⟩) := by decide +kernel

end Netcode
