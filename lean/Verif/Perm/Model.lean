import Verif.Basic
/-!
# Plaintext permutations

Model of `/repo/secure-join/Perm/Permutation.h` and `Permutation.cpp`.

Simplifications common to this file: entries of `mPi` are `u32`; they are `Nat` here, because the
code asserts `n < 2^32 - 1` (Permutation.h 59). A matrix view is its list of rows together with its
width `cols`; the content of a row is an arbitrary type `α`, because every statement copies whole
rows. `src` and `dst` do not alias (`__restrict`, Permutation.h 97-112).
-/
namespace SecJoin

/-- `class Perm`, Permutation.h 21-24: the vector `mPi`. -/
structure Perm where
  pi : List Nat
deriving DecidableEq, Repr

/-- `enum class PermOp`, Permutation.h 13-18. -/
inductive PermOp where
  | regular
  | inverse
deriving DecidableEq, Repr

/-- `oc::MatrixView`: rows and the number of columns of each row. -/
structure Mat (α : Type _) where
  cols : Nat
  rows : List α
deriving DecidableEq, Repr

namespace Perm

/-- Permutation.h 73. -/
def size (p : Perm) : Nat := p.pi.length

/-- `Perm(u64 n)`, Permutation.h 38-43. -/
def id (n : Nat) : Perm := ⟨List.range n⟩

/-- `std::swap(mPi[i], mPi[j])`, Permutation.h 63. -/
def swap (l : List Nat) (i j : Nat) : Res (List Nat) := do
  let x ← rd l i
  let y ← rd l j
  let l ← wr l i y
  wr l j x

/-- The loop of `randomize`, Permutation.h 60-64; `draw i` is the word returned by the `i`-th call
of `prng.get<u32>()`; `k` is the number of iterations left. -/
def randomizeLoop (draw : Nat → Nat) (n : Nat) : Nat → List Nat → Res (List Nat)
  | 0, l => .ok l
  | k + 1, l => do
    let i := n - (k + 1)
    let idx := draw i % (n - i) + i
    let l ← swap l i idx
    randomizeLoop draw n k l

/-- `Perm::randomize`, Permutation.h 53-65. -/
def randomize (draw : Nat → Nat) (n : Nat) : Res Perm := do
  let l ← randomizeLoop draw n n (List.range n)
  .ok ⟨l⟩

/-- One copied row of the `Regular` branch: `std::copy(src.data(mPi[i]), .., d)` where `d` is the
row `di` of `dst`. Permutation.h 97/105/124 and 138. -/
def regStep (pi : List Nat) (src : List α) (dst : List α) (i di : Nat) : Res (List α) := do
  let p ← rd pi i
  let r ← rd src p
  wr dst di r

/-- One copied row of the `Inverse` branch: `std::copy(s, .., dst.data(mPi[i]))` where `s` is the
row `si` of `src`. Permutation.h 162/170/189 and 203. -/
def invStep (pi : List Nat) (src : List α) (dst : List α) (i si : Nat) : Res (List α) := do
  let p ← rd pi i
  let r ← rd src si
  wr dst p r

/-- Eight row copies, Permutation.h 97-133 and 162-198. `i` is the loop index and `d` the row that
the running pointer (`d` or `s`) points at. The code first forms all pointers and then copies; as
`src` and `dst` do not alias this equals copying one by one. -/
def block8 (step : List α → Nat → Nat → Res (List α)) (dst : List α) (i d : Nat) :
    Res (List α) := do
  let dst ← step dst (i + 0) (d + 0)
  let dst ← step dst (i + 1) (d + 1)
  let dst ← step dst (i + 2) (d + 2)
  let dst ← step dst (i + 3) (d + 3)
  let dst ← step dst (i + 4) (d + 4)
  let dst ← step dst (i + 5) (d + 5)
  let dst ← step dst (i + 6) (d + 6)
  step dst (i + 7) (d + 7)

/-- The unrolled main loop, Permutation.h 92-134 and 157-199: `k` iterations from index `i`, running
pointer at row `d`, which ends at `d7 + cols`, that is eight rows further. -/
def loop8 (step : List α → Nat → Nat → Res (List α)) : Nat → Nat → Nat → List α → Res (List α)
  | 0, _, _, dst => .ok dst
  | k + 1, i, d, dst => do
    let dst ← block8 step dst i d
    loop8 step k (i + 8) (d + 7 + 1) dst

/-- The tail loop, Permutation.h 136-139 and 201-204: `k` iterations from index `i`. -/
def loop1 (step : List α → Nat → Nat → Res (List α)) : Nat → Nat → List α → Res (List α)
  | 0, _, dst => .ok dst
  | k + 1, i, dst => do
    let dst ← step dst i i
    loop1 step k (i + 1) dst

/-- `Perm::apply(src, dst, op)`, Permutation.h 77-218, for trivially constructible entries (all uses
in the code base). Returns the new contents of `dst`. -/
def apply (p : Perm) (src dst : Mat α) (op : PermOp) : Res (Mat α) := do
  throwIf (src.rows.length != p.size)
  throwIf (dst.rows.length != p.size)
  throwIf (src.cols != dst.cols)
  let step := match op with
    | .regular => regStep p.pi src.rows
    | .inverse => invStep p.pi src.rows
  let size8 := p.size / 8 * 8
  let d ← loop8 step (p.size / 8) 0 0 dst.rows
  let d ← loop1 step (p.size - size8) size8 d
  .ok ⟨dst.cols, d⟩

/-- `std::vector<T> Perm::apply(const std::vector<T>&)`, Permutation.h 237-247 and
`applyInv` 256-266: `dst` is value initialized with `z`. -/
def applyVec (p : Perm) (z : α) (src : List α) (op : PermOp) : Res (List α) := do
  let r ← p.apply ⟨1, src⟩ ⟨1, List.replicate p.size z⟩ op
  .ok r.rows

/-- Loop of `Perm::inverse`, Permutation.cpp 11-12. -/
def inverseLoop (pi : List Nat) : Nat → Nat → List Nat → Res (List Nat)
  | 0, _, r => .ok r
  | k + 1, i, r => do
    let p ← rd pi i
    let r ← wr r p i
    inverseLoop pi k (i + 1) r

/-- `Perm::inverse`, Permutation.cpp 8-15. -/
def inverse (p : Perm) : Res Perm := do
  let r ← inverseLoop p.pi p.size 0 (List.replicate p.size 0)
  .ok ⟨r⟩

/-- `Perm::compose`, Permutation.cpp 19-22. -/
def compose (p rhs : Perm) : Res Perm := do
  let r ← p.applyVec 0 rhs.pi .regular
  .ok ⟨r⟩

/-- Loop of `Perm::validate`, Permutation.h 292-301; `v` is the vector of visited flags. -/
def validateLoop (pi : List Nat) (n : Nat) : Nat → Nat → List Nat → Res Unit
  | 0, _, _ => .ok ()
  | k + 1, i, v => do
    let p ← rd pi i
    throwIf (p ≥ n)
    let vv ← rd v p
    throwIf (vv != 0)
    let v ← wr v p 1
    validateLoop pi n k (i + 1) v

/-- `Perm::validate`, Permutation.h 289-302. -/
def validate (p : Perm) : Res Unit :=
  validateLoop p.pi p.size p.size 0 (List.replicate p.size 0)

end Perm

/-- Loop of `AdditivePerm::validate`, AdditivePerm.h 28-31: XOR the received share with ours. -/
def xorShares (mine theirs : List Nat) : List Nat := List.zipWith (fun t m => t ^^^ m) theirs mine

/-- `AdditivePerm::validate`, AdditivePerm.h 21-34, as run by one party: `theirs` is the received
vector (`sock.recv` into a vector of the own size, so the sizes must agree). -/
def AdditivePerm.validate (mine theirs : List Nat) : Res Unit := do
  throwIf (mine.length != theirs.length)
  Perm.validate ⟨xorShares mine theirs⟩

end SecJoin
