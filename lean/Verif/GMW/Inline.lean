import Verif.GMW.Spec
/-!
# Adding a circuit to another one: `evaluate` of GMW/Circuit.cpp

`BetaCircuit` belongs to a library outside of the repository. Besides its gates it keeps a flag for every wire
(`mWireFlags`): inverting a wire (`addInvert`) and constants (`addConst`) set the flag and add no gate, and later gates
reading the wire take the flag into account when they are added. So the flags matter only for wires read after the last
gate, the outputs. That flags exist and that an output may be flagged as inverted is visible in the repository at
Gmw.cpp 102-109, where the check of the outputs for `InvWire` is commented out.
-/
namespace SecJoin
namespace Gmw

/-- `BetaWireFlag` of a wire in use. -/
inductive Flag
  | plain
  | inverted
  | const (b : Bool)
deriving DecidableEq

def Flag.val : Flag → Bool → Bool
  | .plain, x => x
  | .inverted, x => !x
  | .const b, _ => b

/-- What the code uses of a `BetaCircuit`. -/
structure Circuit where
  inputs : List (List Nat)
  outputs : List (List Nat)
  wireCount : Nat
  gates : List Gate
  flag : Nat → Flag

/-- The wires `ws` get the values `bs`. -/
def place (ws : List Nat) (bs : List Bool) (v : Nat → Bool) : Nat → Bool :=
  fun i => if i ∈ ws then bs.getD (ws.idxOf i) false else v i

/-- The values of a circuit's outputs: inputs are assigned, gates evaluated, flags applied. The other wires start with
any values `v`. -/
def Circuit.eval (c : Circuit) (ins : List (List Bool)) (v : Nat → Bool) : List (List Bool) :=
  c.outputs.map fun o => o.map fun w =>
    (c.flag w).val (evalGates c.gates (place c.inputs.flatten ins.flatten v) w)

/-- The circuit under construction: the number of wires and the gates. Its wires are not flagged; otherwise the library
changes the types of the gates added. -/
structure Parent where
  wires : Nat
  gates : List Gate

/-- Assignments to entries of the vector `wires`, Circuit.cpp 112-123. -/
def setWires : List Nat → List (Nat × Nat) → Res (List Nat)
  | ws, [] => .ok ws
  | ws, (i, x) :: r => do
    let ws ← wr ws i x
    setWires ws r

/-- One iteration of the last loop, Circuit.cpp 126-137. -/
def renameGate (ws : List Nat) (g : Gate) : Res Gate := do
  let a ← rd ws g.in0
  let b ← rd ws g.in1
  let o ← rd ws g.out
  .ok ⟨a, b, o, g.type⟩

/-- `evaluate(parent, cir, inputs, outputs)`, Circuit.cpp 85-139. The internal wires are counted as the wires besides
inputs and outputs and taken to be the last ones. If the count is negative it wraps around, and allocating that many
wires throws. Entries of `wires` not assigned hold `junk`. Copies (`GateType::a`) are gates here. -/
def evaluate (junk : Nat) (p : Parent) (c : Circuit) (inputs outputs : List (List Nat)) : Res Parent := do
  throwIf (c.inputs.length != inputs.length)
  throwIf (c.outputs.length != outputs.length)
  throwIf (c.inputs.map List.length != inputs.map List.length)
  throwIf (c.outputs.map List.length != outputs.map List.length)
  let io := inputs.flatten.length + outputs.flatten.length
  throwIf (decide (c.wireCount < io))
  let t := c.wireCount - io
  let ws ← setWires (List.replicate c.wireCount junk)
    (c.inputs.flatten.zip inputs.flatten ++ c.outputs.flatten.zip outputs.flatten ++
      (List.range t).map fun i => (i + c.wireCount - t, p.wires + i))
  let gs ← mapRes (renameGate ws) c.gates
  .ok ⟨p.wires + t, p.gates ++ gs⟩

end Gmw
end SecJoin
