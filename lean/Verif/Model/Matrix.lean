import Verif.Model.GF

/-!
# Matrix inversion

Model of `netcode/detail/square_matrix.hh` and `netcode/detail/invert_matrix.cc`.

A `square_matrix` of dimension `n` stores `n*n` numbers in one vector.  The model keeps the storage
as a function `m q r` standing for `m_vec[q * n + r]` with `r < n` (the map (q, r) ↦ q*n + r is
injective for r < n, so distinct model cells are distinct storage cells).
`mat(row, col)` of square_matrix.hh:24-38 is therefore `m col row`; `mat[q*cols + r]` of
invert_matrix.cc is `m q r`.
-/

namespace Netcode

variable {w : Nat}

/-- Storage of a `square_matrix` (square_matrix.hh:14-79). -/
abbrev Mat (w : Nat) := Nat → Nat → BitVec w

/-- The identity written at invert_matrix.cc:18-24. -/
def matId : Mat w := fun i j => if i = j then 1#w else 0#w

/-- The swap of rows `i` and `j` of one matrix, invert_matrix.cc:46-56. -/
def swapRows (i j : Nat) (m : Mat w) : Mat w :=
  fun a => if a = i then m j else if a = j then m i else m a

/-- The multiplication of row `i` by `c`, invert_matrix.cc:64-68. -/
def scaleRow (gf : GF w) (i : Nat) (c : BitVec w) (m : Mat w) : Mat w :=
  fun a b => if a = i then mulScalar gf (m a b) c else m a b

/-- Row `j` is xored with row `i`, invert_matrix.cc:79-84. -/
def xorRow (i j : Nat) (m : Mat w) : Mat w :=
  fun a b => if a = j then m a b ^^^ m i b else m a b

/-- Row `j` is xored with `c` times row `i`, invert_matrix.cc:88-94 and 113-116. -/
def addRow (gf : GF w) (c : BitVec w) (i j : Nat) (m : Mat w) : Mat w :=
  fun a b => if a = j then m a b ^^^ mulScalar gf c (m i b) else m a b

/-- invert_matrix.cc:35-38: the first `j` in `[j, n)` with `mat j i ≠ 0`, else `n`
(`k` bounds the number of iterations left, `n - j`). -/
def findPivot (m : Mat w) (i : Nat) : Nat → Nat → Nat
  | 0, j => j
  | k + 1, j => if m j i = 0#w then findPivot m i k (j + 1) else j

/-- invert_matrix.cc:73-97, one iteration on `j`. -/
def elimRow (gf : GF w) (i : Nat) (st : Mat w × Mat w) (j : Nat) : Mat w × Mat w :=
  let (mat, inv) := st
  if mat j i ≠ 0#w then
    if mat j i = 1#w then (xorRow i j mat, xorRow i j inv)
    else (addRow gf (mat j i) i j mat, addRow gf (mat j i) i j inv)
  else (mat, inv)

/-- invert_matrix.cc:27-98, one iteration on `i`.  `none` is the failure exit of lines 40-44. -/
def forwardStep (gf : GF w) (n i : Nat) (st : Mat w × Mat w) : Option (Mat w × Mat w) :=
  let (mat, inv) := st
  let j := if mat i i = 0#w then findPivot mat i (n - (i + 1)) (i + 1) else i
  if j = n then none
  else
    -- lines 46-56 (no swap when the pivot is already non-zero, i.e. j = i)
    let mat := swapRows i j mat
    let inv := swapRows i j inv
    -- lines 59-69
    let tmp := mat i i
    let (mat, inv) :=
      if tmp ≠ 1#w then (scaleRow gf i (gfInvert gf tmp) mat, scaleRow gf i (gfInvert gf tmp) inv)
      else (mat, inv)
    -- lines 71-97
    some ((List.range' (i + 1) (n - (i + 1))).foldl (elimRow gf i) (mat, inv))

/-- The loop of invert_matrix.cc:27-98 from `i` on (`k` iterations left). -/
def forward (gf : GF w) (n : Nat) : Nat → Nat → Mat w × Mat w → Option (Mat w × Mat w)
  | 0, _, st => some st
  | k + 1, i, st =>
    match forwardStep gf n i st with
    | none => none
    | some st => forward gf n k (i + 1) st

/-- invert_matrix.cc:104-117, one iteration on `j`. -/
def backRow (gf : GF w) (i : Nat) (st : Mat w × Mat w) (j : Nat) : Mat w × Mat w :=
  let (mat, inv) := st
  if mat j i ≠ 0#w then
    let tmp := mat j i
    (fun a b => if a = j ∧ b = i then 0#w else mat a b, addRow gf tmp i j inv)
  else (mat, inv)

/-- The loop of invert_matrix.cc:101-123: `i` goes from `rows - 1` down to 0. -/
def backward (gf : GF w) : Nat → Mat w × Mat w → Mat w × Mat w
  | 0, st => st
  | i + 1, st => backward gf i ((List.range i).foldl (backRow gf i) st)

/-- `invert` (invert_matrix.cc:9-127).  `.error c` is the returned faulty column (lines 40-44:
`j - 1` with `j = rows`), `.ok inv` the inverse (the content of `mat` afterwards is not used by the
callers). -/
def invert (gf : GF w) (n : Nat) (mat : Mat w) : Except Nat (Mat w) :=
  match forward gf n n 0 (mat, matId) with
  | none => .error (n - 1)
  | some st => .ok (backward gf n st).2

end Netcode
