import Verif.Basic
/-!
# Helpers of the tests

The files in this directory evaluate instances of the statements of the properties on concrete values. They are tests, not proofs, and no claim rests
on them.
-/
namespace SecJoin.Checks

/-- A mixed number below `m`. -/
def rnd (i m : Nat) : Nat := Id.run do
  let mut x := (i + 1) * 0x9E3779B97F4A7C15 % 2 ^ 64
  for _ in [0:3] do
    x := (x ^^^ (x >>> 29)) * 0xBF58476D1CE4E5B9 % 2 ^ 64
  return (x ^^^ (x >>> 32)) % m

/-- A permutation of `0, …, n-1`. -/
def rperm (seed n : Nat) : List Nat := ((List.range n).map fun i => (rnd (seed * 1000 + i) (2 ^ 40), i)).mergeSort (fun a b => a.1 ≤ b.1) |>.map (·.2)

def okAnd {α : Type} (r : Res α) (f : α → Bool) : Bool := match r with | .ok a => f a | .error _ => false
def isThrow {α : Type} (r : Res α) : Bool := match r with | .error .throw => true | _ => false
def isUb {α : Type} (r : Res α) : Bool := match r with | .error .ub => true | _ => false
def isDiv {α : Type} (r : Res α) : Bool := match r with | .error .diverge => true | _ => false
def say (s : String) (b : Bool) : IO Unit := IO.println s!"{s} {b}"

end SecJoin.Checks
