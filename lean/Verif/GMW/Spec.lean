import Verif.GMW.Model
/-!
# Plaintext evaluation of circuits
-/
namespace SecJoin
namespace Gmw

/-- The truth table of a gate type. -/
def table : GateType → Bool → Bool → Bool
  | .zero, _, _ => false
  | .nor, a, b => !(a || b)
  | .naAnd, a, b => !a && b
  | .na, a, _ => !a
  | .nbAnd, a, b => a && !b
  | .nb, _, b => !b
  | .xor, a, b => a ^^ b
  | .nand, a, b => !(a && b)
  | .and, a, b => a && b
  | .nxor, a, b => !(a ^^ b)
  | .a, a, _ => a
  | .nbOr, a, b => a || !b
  | .b, _, b => b
  | .naOr, a, b => !a || b
  | .or, a, b => a || b
  | .one, _, _ => true

/-- Plaintext evaluation of one gate on the wire values of one instance. -/
def evalGate (g : Gate) (v : Nat → Bool) : Nat → Bool :=
  fun i => if i = g.out then table g.type (v g.in0) (v g.in1) else v i

/-- Plaintext evaluation of gates in order. -/
def evalGates : List Gate → (Nat → Bool) → Nat → Bool
  | [], v => v
  | g :: gs, v => evalGates gs (evalGate g v)

end Gmw
end SecJoin
