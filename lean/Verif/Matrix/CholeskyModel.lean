import Verif.Matrix.TridiagModel

/-!
# The Cholesky decomposition

Source: `dal/math/matrix/cholesky.cpp`.

Simplifications: doubles are elements of an ordered field and the square root is a parameter; matrices and vectors are functions of their
indices with the size `n` given; a division by zero, which in the code gives an infinity or a NaN, is `none`, as is a failed `REQUIRE`.
-/

namespace Dal.Chol

open Dal.Tri (upd)

variable {K : Type} [Field K] [LinearOrder K] [IsStrictOrderedRing K]

/-- `std::inner_product(f, f + n, g, 0.0)`. -/
def inner (f g : Nat → K) : Nat → K
  | 0 => 0
  | n + 1 => inner f g n + f n * g n

/-- `std::inner_product(f + from, f + from + n, g + from, 0.0)`. -/
def innerFrom (f g : Nat → K) (start : Nat) : Nat → K
  | 0 => 0
  | n + 1 => innerFrom f g start n + f (start + n) * g (start + n)

/-- A write to a matrix. -/
def upd2 (m : Nat → Nat → K) (i j : Nat) (x : K) : Nat → Nat → K := fun r c => if r = i ∧ c = j then x else m r c

/-- The matrix that is read: itself being written over, when it is decomposed in place (`cholesky.cpp` 115), or the source. -/
def look (inPlace : Bool) (a out : Nat → Nat → K) : Nat → Nat → K := if inPlace then out else a

/-- The inner loop of `CholeskyImpl` (`cholesky.cpp` 24–29), for `jj` below the count. -/
def implRow (inPlace : Bool) (r : K) (a : Nat → Nat → K) (i : Nat) (mean : K) : Nat → (Nat → Nat → K) → (Nat → Nat → K)
  | 0, out => out
  | j + 1, out =>
    let out := implRow inPlace r a i mean j out
    let lockedIn := inner (out i) (out j) j
    let needMore := look inPlace a out j i - lockedIn
    upd2 out i j (if needMore = 0 then 0 else needMore * out j j / (out j j * out j j + r * mean * (r * mean)))

/-- The outer loop of `CholeskyImpl` (`cholesky.cpp` 20–35), for the first rows: the matrix and `meanDiag`. -/
def impl (sqrt : K → K) (inPlace : Bool) (r : K) (a out0 : Nat → Nat → K) : Nat → (Nat → Nat → K) × K
  | 0 => (out0, 0)
  | i + 1 =>
    let (out, mean) := impl sqrt inPlace r a out0 i
    let out := implRow inPlace r a i mean i out
    let needMore := look inPlace a out i i - inner (out i) (out i) i
    let out := upd2 out i i (sqrt (max 0 needMore))
    (out, mean + (out i i - mean) / (1 + i))

/-- `Cholesky_` (`cholesky.cpp` 39–41): the matrix `lower_`, whose diagonal holds inverses. -/
structure Decomp (K : Type) where
  n : Nat
  lower : Nat → Nat → K

/-- The loop over the diagonal (`cholesky.cpp` 58–59), for the first rows. -/
def invertDiag (reg : K) : Nat → (Nat → Nat → K) → (Nat → Nat → K)
  | 0, m => m
  | i + 1, m => let m := invertDiag reg i m; upd2 m i i (m i i / (reg + m i i * m i i))

/-- The constructor (`cholesky.cpp` 44–60). -/
def construct (sqrt : K → K) (inPlace : Bool) (r : K) (n : Nat) (a : Nat → Nat → K) : Option (Decomp K) :=
  let (l, mean) := impl sqrt inPlace r a (if inPlace then a else fun _ _ => 0) n
  let reg := r * mean * (r * mean)
  if reg > 0 then some ⟨n, invertDiag reg n l⟩ else none

/-- Whether the diagonal can be divided by. -/
def Decomp.regular (d : Decomp K) : Bool := (List.range d.n).all fun i => decide (d.lower i i ≠ 0)

/-- `XMultiply_af` (`cholesky.cpp` 67–82): first by the transposed, then by the matrix. -/
def multiply (d : Decomp K) (x : Nat → K) : Option (Nat → K) :=
  if d.regular then
    let temp := fun i => innerFrom x (fun k => d.lower k i) (i + 1) (d.n - (i + 1)) + x i / d.lower i i
    some fun i => inner temp (d.lower i) i + temp i / d.lower i i
  else none

/-- The first loop of `XSolve_af` (`cholesky.cpp` 86–89), for the first rows. -/
def forward (lower : Nat → Nat → K) (b : Nat → K) : Nat → (Nat → K) → (Nat → K)
  | 0, x => x
  | i + 1, x => let x := forward lower b i x; upd x i ((b i - inner x (lower i) i) * lower i i)

/-- `std::transform` with `LinearIncrement(-x_i)` (`cholesky.cpp` 92), for the first entries. -/
def subtract (row : Nat → K) (xi : K) : Nat → (Nat → K) → (Nat → K)
  | 0, x => x
  | k + 1, x => let x := subtract row xi k x; upd x k (x k + -xi * row k)

/-- The second loop of `XSolve_af` (`cholesky.cpp` 90–93), for the rows below the count, from the last down. -/
def backward (lower : Nat → Nat → K) : Nat → (Nat → K) → (Nat → K)
  | 0, x => x
  | i + 1, x =>
    let x := upd x i (x i * lower i i)
    backward lower i (subtract (lower i) (x i) i x)

/-- `XSolve_af` (`cholesky.cpp` 84–94) into a vector of size `room`, which is not resized: `none` when it is too small to be written to. -/
def solve (d : Decomp K) (b : Nat → K) (room : Nat) : Option (Nat → K) :=
  if room < d.n then none else some (backward d.lower d.n (forward d.lower b d.n (fun _ => 0)))

/-- `MakeCorrelated` (`cholesky.cpp` 98–106). -/
def makeCorrelated (d : Decomp K) (z : Nat → K) : Option (Nat → K) :=
  if d.regular then some fun i => inner z (d.lower i) i + z i / d.lower i i else none

/-- `CholeskySolve` (`cholesky.cpp` 114–118): decomposition in place, each right-hand side solved into itself. -/
def solveAll (sqrt : K → K) (r : K) (n : Nat) (a : Nat → Nat → K) (bs : List (Nat → K)) : Option (List (Nat → K)) :=
  (construct sqrt true r n a).bind fun d => bs.mapM fun b => solve d b n

end Dal.Chol
