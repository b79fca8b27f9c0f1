import Verif.GMW.Spec
/-!
# Circuits built by the code: GMW/Circuit.cpp

`BetaCircuit` belongs to a library outside of the repository. A circuit is the list of the builder calls;
`addInvert` negates the value of a wire, `addGate` writes the gate's result, whatever gates the library emits for
that. Printing is left out.
-/
namespace SecJoin
namespace Gmw

/-- The builder calls. -/
inductive Op
  | inv (w : Nat)
  | gate (g : Gate)

/-- The meaning of the builder calls. -/
def Op.eval : Op → (Nat → Bool) → Nat → Bool
  | .inv w, v => fun i => if i = w then !(v i) else v i
  | .gate g, v => evalGate g v

def evalOps : List Op → (Nat → Bool) → Nat → Bool
  | [], v => v
  | o :: os, v => evalOps os (o.eval v)

/-- The inner loop of `isZeroCircuit`, Circuit.cpp 26-38, from position `i` on; `fuel` bounds the number of
iterations. -/
def andPairs (bits step : Nat) : Nat → Nat → List Op
  | 0, _ => []
  | fuel + 1, i =>
    if i + step < bits then .gate ⟨i, i + step, i, .and⟩ :: andPairs bits step fuel (i + step * 2) else []

/-- The outer loop, Circuit.cpp 22-41. -/
def andTree (bits : Nat) : Nat → Nat → List Op
  | 0, _ => []
  | fuel + 1, step => if step < bits then andPairs bits step bits 0 ++ andTree bits fuel (step * 2) else []

/-- `isZeroCircuit(bits)`, Circuit.cpp 6-49: wires `0 .. bits-1` are the input, wire 0 is the output. -/
def isZeroOps (bits : Nat) : List Op :=
  ((List.range bits).map fun i => .inv i) ++ andTree bits bits 1

end Gmw
end SecJoin
