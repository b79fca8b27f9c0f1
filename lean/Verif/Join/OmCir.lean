import Verif.Join.OmModel
import Verif.GMW.Inline
/-!
# The circuits of the join and the group-by as circuits of the library

The circuits that `Gmw::init` gets: bundles, number of wires and gates. The library distributes the gates to levels.
-/
namespace SecJoin
namespace OmJoin
open Gmw (Gate Op)

/-- The gates among the builder calls. -/
def gatesOf (ops : List Op) : List Gate := ops.filterMap fun o => match o with | .gate g => some g | .inv _ => none

/-- The number of wires after the levels of `getControlBitsCircuit`, OmJoin.cpp 88-96, from level `i` on. -/
def ctrlWires (bits : Nat) : Nat → Nat → Nat → Nat
  | 0, _, next => next
  | left + 1, i, next => ctrlWires bits left (i + 1) (if bits / 2 / 2 ^ i = 1 then next else next + bits / 2 / 2 ^ i)

/-- `getControlBitsCircuit(bits)`, OmJoin.cpp 63-111, as the circuit it returns; the gates are those of `ctrlOps`. -/
def ctrlCircuit (bits : Nat) : Gmw.Circuit where
  inputs := [List.range' 0 bits, List.range' bits bits]
  outputs := [List.range' (2 * bits) 1]
  wireCount := ctrlWires bits (Nat.clog 2 bits) 0 (if bits = 1 then 2 * bits + 1 else 3 * bits + 1)
  gates := gatesOf (ctrlOps bits)
  flag _ := .plain

/-- `updateActiveFlagCir(1, 1, 1)`, GroupBy.cpp 219-245. -/
def groupFlagCircuit : Gmw.Circuit where
  inputs := [[0], [1]]
  outputs := [[2]]
  wireCount := 3
  gates := [⟨0, 1, 2, .naAnd⟩]
  flag _ := .plain

end OmJoin
end SecJoin
