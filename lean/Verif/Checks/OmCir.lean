import Verif.Join.OmCir
import Verif.Checks.Util
/-! Tests for the circuits of the join and the group-by. They are not proofs. -/
namespace SecJoin.Checks.OmCir
open SecJoin SecJoin.OmJoin SecJoin.Gmw

def bit (s t : Nat) : Bool := rnd (s * 101 + t) 2 == 1
/-- Every gate reads inputs and results of gates before. -/
def ordered (c : Gmw.Circuit) : Bool :=
  (c.gates.foldl (fun (p : Bool × List Nat) g => (p.1 && p.2.contains g.in0 && p.2.contains g.in1, g.out :: p.2)) (true, c.inputs.flatten)).1
def bounded (c : Gmw.Circuit) : Bool :=
  c.gates.all (fun g => g.in0 < c.wireCount && g.in1 < c.wireCount && g.out < c.wireCount) && (c.inputs.flatten ++ c.outputs.flatten).all (· < c.wireCount)
def isSet (c : Gmw.Circuit) : Bool := c.outputs.flatten.all fun o => c.gates.any fun g => g.out == o
/-- The wires besides the inputs start with any values. The second key differs from the first in bit `d`. -/
def start (bits s d : Nat) (w : Nat) : Bool :=
  if w < bits then bit s w else if w < 2 * bits then bit s (w - bits) != (w - bits == d) else bit (s + 7) w

#eval say "C31_circuit" <| (List.range' 1 9).all fun bits => (List.range (bits + 1)).all fun d =>
  evalGates (ctrlCircuit bits).gates (start bits (bits + d) d) ((ctrlCircuit bits).outputs.flatten.getD 0 0) == (decide (2 ^ Nat.log 2 bits ≤ d))
#eval say "C31_circuit_levels" <| (List.range' 1 20).all fun bits => ordered (ctrlCircuit bits) && bounded (ctrlCircuit bits) && isSet (ctrlCircuit bits) &&
  (ctrlCircuit bits).inputs == [List.range bits, List.range' bits bits] && (ctrlCircuit bits).outputs == [[2 * bits]]
#eval say "C34_flag_circuit" <| [false, true].all fun a => [false, true].all fun b => evalGates groupFlagCircuit.gates (fun w => if w == 0 then a else w == 1 && b)
  (groupFlagCircuit.outputs.flatten.getD 0 0) == (!a && b)

end SecJoin.Checks.OmCir
