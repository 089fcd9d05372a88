import Verif.Dist.Collective
import Mathlib.Data.Matrix.Mul
import Mathlib.Data.Fintype.Sigma
import Mathlib.Data.Fintype.BigOperators

/-!
# Matrix products of a parallel participant (C94)

Model of `/repo/src/acceleration/impl/ParallelMatrixOperations.hpp`. A participant has `n + 1` ranks. The entries are elements of a
commutative ring: no rounding. A matrix with `q` columns is the list of its rows; a message is the raw content of a matrix, the size of which
the receiver has to know. `_multiplyNM_dotProduct` (lines 217-252) is not modelled: no caller selects it.
-/

set_option autoImplicit false

namespace Verif.MatOps

variable {K : Type} [CommRing K] {n : ℕ}

/-- A matrix with `q` columns, row by row. -/
abbrev Rows (K : Type) (q : ℕ) := List (Fin q → K)

/-- `Eigen::MatrixXd::size()` -/
def entries {q : ℕ} (A : Rows K q) : ℕ := A.length * q

/-- The local product `A * B`. -/
def mul {q c : ℕ} (A : Rows K q) (B : Matrix (Fin q) (Fin c) K) : Rows K c := A.map fun v => Matrix.vecMul v B

/-- `result.block(off, 0, rows, cols) = block`. The caller checks that the block is inside of the matrix. -/
def setBlock {c : ℕ} (off : ℕ) (block result : Rows K c) : Rows K c := result.take off ++ block ++ result.drop (off + block.length)

/-- `_dimOffsets`: BaseQNAcceleration.cpp:899-917. A data field has its accumulated numbers of vertices per rank (`getVertexOffsets()`: entry `i` counts the
vertices of the ranks up to and including `i`) and the number of unknowns per vertex (dimensions times time steps). -/
def dimOffsets (fields : List ((ℕ → ℕ) × ℕ)) : ℕ → ℕ
  | 0 => 0
  | i + 1 => (fields.map fun f => f.1 i * f.2).sum

/-! ## Cyclic communication -/

/-- The right neighbour in the ring: com/Communication.cpp:376 -/
def rightOf (r : Fin (n + 1)) : Fin (n + 1) := Fin.ofNat (n + 1) (r.val + 1)

/-- `sourceProc`, lines 187 and 189: the rank whose rows arrive in a cycle. With `cycle = 1` also `prevProc`, line 140, and the left neighbour in the
ring, com/Communication.cpp:375. -/
def source (r : Fin (n + 1)) (cycle : ℕ) : Fin (n + 1) :=
  Fin.ofNat (n + 1) (if r.val < cycle then n + 1 + r.val - cycle else r.val - cycle)

/-- The number of rows of a rank: lines 141, 191, 192 -/
def rowsOf (offsets : ℕ → ℕ) (s : ℕ) : ℕ := if 0 < s then offsets (s + 1) - offsets s else offsets 1

/-- `if (size > 0) requestSend = _cyclicCommRight->aSend(...)`. The send does not block: `requestSend->wait()` returns when the neighbour has posted its
receive, which the neighbour does before it waits for anything (lines 149-154, 181-202). -/
def pass {q : ℕ} {α : Type} (dst : Fin (n + 1)) (A : Rows K q) (k : Prog (Fin (n + 1)) (Rows K q) α) : Prog (Fin (n + 1)) (Rows K q) α :=
  if 0 < entries A then .send dst A k else k

/-- The receive which has been posted with `aReceive` (lines 153-154, 196-199), completed by `requestRcv->wait()` at the begin of the next cycle (lines 174-175), if
the expected matrix has entries; otherwise the matrix is the one of line 143 or 193. A message of another size is out of the bounds of the buffer. -/
def expect {q : ℕ} {α : Type} (src : Fin (n + 1)) (rows : ℕ) (k : Rows K q → Prog (Fin (n + 1)) (Rows K q) α) : Prog (Fin (n + 1)) (Rows K q) α :=
  if 0 < rows * q then .recv src fun m => .ensure .assert (m.length = rows) (k m) else k (List.replicate rows 0)

/-- The loop of `_multiply_cyclic`, lines 169-214, with `k` cycles left. -/
def cycles {q c : ℕ} (r : Fin (n + 1)) (right : Matrix (Fin q) (Fin c) K) (offsets : ℕ → ℕ) :
    ℕ → ℕ → ℕ → Rows K c → Prog (Fin (n + 1)) (Rows K q) (Rows K c)
  | 0, _, _, result => .ret result
  | k + 1, cycle, rows, result =>
    expect (source r 1) rows fun copy =>
    let rest := Prog.ensure .assert (offsets (source r cycle) + (mul copy right).length ≤ result.length)
      (cycles r right offsets k (cycle + 1) (rowsOf offsets (source r (cycle + 1))) (setBlock (offsets (source r cycle)) (mul copy right) result))
    if cycle < n then pass (rightOf r) copy rest else rest

/-- `_multiply_cyclic`, lines 114-215: `left` are the rows of this rank, `right` the columns of this rank. Eigen checks the bounds of blocks with assertions. -/
def cyclic {q c : ℕ} (offsets : ℕ → ℕ) (r : Fin (n + 1)) (left : Rows K q) (right : Matrix (Fin q) (Fin c) K) (result : Rows K c) :
    Prog (Fin (n + 1)) (Rows K q) (Rows K c) :=
  pass (rightOf r) left <|
  .ensure .assert (offsets r + (mul left right).length ≤ result.length) <|
  cycles r right offsets n 1 (rowsOf offsets (source r 1)) (setBlock (offsets r) (mul left right) result)

/-- `multiply` with `cyclicComm`, lines 30-73. A participant is parallel if it has more than one rank (IntraComm.cpp:31-40). -/
def multiplyCyclic {q c : ℕ} (offsets : ℕ → ℕ) (r : Fin (n + 1)) (left : Rows K q) (right : Matrix (Fin q) (Fin c) K) (result : Rows K c) :
    Prog (Fin (n + 1)) (Rows K q) (Rows K c) :=
  if n = 0 then .ret (mul left right) else cyclic offsets r left right result

/-! ## Reduction and distribution of blocks -/

/-- The sum of two arrays of the same size, `reduceSum` (Communication.cpp:42-72). Another size is out of the bounds of the buffer. -/
def accumulate {m : ℕ} (s : Option (Rows K m)) (x : Rows K m) : Option (Rows K m) :=
  s.bind fun s => if x.length = s.length then some (List.zipWith (· + ·) s x) else none

/-- The loop over the secondary ranks, lines 293-303 -/
def distribute {m : ℕ} (offsets : ℕ → ℕ) (total mine : Rows K m) : List (Fin (n + 1)) → Prog (Fin (n + 1)) (Rows K m) (Rows K m)
  | [] => .ret mine
  | r :: l =>
    let rows := offsets (r + 1) - offsets r
    .ensure .assert (offsets r + rows ≤ total.length) <|
    if 0 < rows * m then .send r ((total.drop (offsets r)).take rows) (distribute offsets total mine l)
    else distribute offsets total mine l

/-- `_multiplyNM_block`, lines 254-305: `left` are the columns of this rank, `right` its rows, `result` has the rows of this rank. -/
def blockwise {q m : ℕ} (offsets : ℕ → ℕ) (r : Fin (n + 1)) (left : Rows K q) (right : Matrix (Fin q) (Fin m) K) (result : Rows K m) :
    Prog (Fin (n + 1)) (Rows K m) (Rows K m) :=
  if r = 0 then
    gather (fun s _ x => accumulate s x)
      (fun s => s.elim (.fail .assert) fun total =>
        .ensure .assert (offsets 1 ≤ total.length) (distribute offsets total (total.take (offsets 1)) (secondaries n)))
      (secondaries n) (some (mul left right))
  else
    .send 0 (mul left right) <|
    if 0 < entries result then .recv 0 fun x => .ensure .assert (x.length = result.length) (.ret x)
    else .ret result

/-- `multiply` without `cyclicComm` and without `dotProductComputation`, lines 30-73 -/
def multiplyBlock {q m : ℕ} (offsets : ℕ → ℕ) (r : Fin (n + 1)) (left : Rows K q) (right : Matrix (Fin q) (Fin m) K) (result : Rows K m) :
    Prog (Fin (n + 1)) (Rows K m) (Rows K m) :=
  if n = 0 then .ret (mul left right) else blockwise offsets r left right result

/-! ## Small results -/

/-- `multiply` without offsets, lines 87-109: the result is stored on every rank. -/
def everywhere {p q m : ℕ} (r : Fin (n + 1)) (left : Matrix (Fin p) (Fin q) K) (right : Matrix (Fin q) (Fin m) K) :
    Prog (Fin (n + 1)) (Matrix (Fin p) (Fin m) K) (Matrix (Fin p) (Fin m) K) :=
  if n = 0 then .ret (left * right) else Dist.allreduceSum r (left * right)

end Verif.MatOps
