import Verif.Basic
/-!
# Requests for correlations

Model of `CorGenerator::implRequest` and of `RequestState` in `/repo/secure-join/CorGenerator`. Sockets and random seeds of the
batches are not modelled. Arithmetic on sizes is modulo `2^64`; assertions are not compiled in.
-/
namespace SecJoin
namespace Cor

/-- `CorType`, Correlations.h, those that can be requested. -/
inductive Kind | ot | ole | f4 | trit
deriving DecidableEq

/-- What is modelled of `Batch`: its type and role, and `mSize`. -/
structure Batch where
  kind : Kind
  role : Bool
  size : Nat
deriving DecidableEq

/-- `BatchSegment`, Batch.h 103-127: the index of the batch, `mBegin`, `mSize`. -/
structure Piece where
  batch : Nat
  off : Nat
  size : Nat
deriving DecidableEq

/-- `GenState`, CorGenerator.h 22-117: `mBatchSize`, `mPartyIdx`, the batches that are being filled (`mOtBatch` and so on) and
`mBatches`. -/
structure Gen where
  batchSize : Nat
  party : Bool
  cur : Kind → Bool → Option Nat
  batches : List Batch

/-- The constructor, CorGenerator.h 25-43. -/
def Gen.new (party : Bool) (numConcurrent batchSize : Nat) : Res Gen := do
  throwIf (decide (batchSize < 2 ^ 10))
  throwIf (decide (2 ^ 26 < batchSize))
  throwIf (numConcurrent == 0)
  throwIf (decide (2 ^ 10 < numConcurrent))
  .ok ⟨batchSize, party, fun _ _ => none, []⟩

/-- `a - b` of unsigned 64 bit numbers. -/
def sub64 (a b : Nat) : Nat := (a + 2 ^ 64 - b) % 2 ^ 64

/-- `oc::roundUpTo(x, 128)`. -/
def roundUp (x : Nat) : Nat := (x + 127) / 128 * 128

/-- Update of one entry of `mOtBatch`, `mOleBatch`, `mF4BitOtBatch`, `mTritOtBatch`. -/
def setCur (c : Kind → Bool → Option Nat) (k : Kind) (r : Bool) (v : Option Nat) : Kind → Bool → Option Nat :=
  fun k' r' => if k' = k ∧ r' = r then v else c k' r'

/-- CorGenerator.cpp 98-104: the batch that is being filled, or a new one. -/
def pick (g : Gen) (k : Kind) (r : Bool) : Nat × Gen :=
  match g.cur k r with
  | some b => (b, g)
  | none => (g.batches.length, { g with cur := setCur g.cur k r (some g.batches.length), batches := g.batches ++ [⟨k, r, 0⟩] })

/-- One round of the loop, CorGenerator.cpp 79-120, with `rem` correlations to go. -/
def carve1 (g : Gen) (k : Kind) (r : Bool) (rem : Nat) : Piece × Gen :=
  let (b, g) := pick g k r
  let begin := (g.batches.getD b ⟨k, r, 0⟩).size
  let avb := sub64 g.batchSize begin
  let size := roundUp (min rem avb)
  let g := { g with batches := g.batches.modify b fun x => { x with size := x.size + size } }
  let g := if avb = size then { g with cur := setCur g.cur k r none } else g
  (⟨b, begin, size⟩, g)

/-- The loop. A round that takes nothing is repeated for ever. `n - j` is `rem`. -/
def carve (g : Gen) (k : Kind) (r : Bool) (rem : Nat) : Res (List Piece × Gen) :=
  if rem = 0 then .ok ([], g)
  else
    let (p, g') := carve1 g k r rem
    if _h : p.size = 0 then .error .diverge
    else do
      let (ps, g'') ← carve g' k r (rem - p.size)
      .ok (p :: ps, g'')
termination_by rem
decreasing_by
  omega

/-- The role with which a kind is requested, CorGenerator.h 171-211: for OLEs it is the index of the party. -/
def roleOf (g : Gen) (k : Kind) (send : Bool) : Bool := if k = .ole then g.party else send

/-- `request<T>(n)`, CorGenerator.h 171-211, after `init`. -/
def request (g : Gen) (k : Kind) (send : Bool) (n : Nat) : Res (List Piece × Gen) := carve g k (roleOf g k send) (roundUp n)

/-- A sequence of requests. -/
def requests (g : Gen) : List (Kind × Bool × Nat) → Res (List (List Piece) × Gen)
  | [] => .ok ([], g)
  | (k, s, n) :: rs => do
    let (ps, g) ← request g k s n
    let (pss, g) ← requests g rs
    .ok (ps :: pss, g)

/-- `batchCount()`, Request.cpp 56-59, for a request of rounded size `n`. -/
def batchCount (g : Gen) (n : Nat) : Nat := divCeil n g.batchSize + 1

end Cor
end SecJoin
