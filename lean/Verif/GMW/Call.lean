import Verif.GMW.Api
/-!
# One evaluation by both parties: `init`, the inputs, `run`

The callers of `Gmw` in RadixSort.cpp, OmJoin.cpp, GroupBy.cpp, Where.cpp and LowMCPerm.cpp copy their inputs and outputs: `setInput` or
`setZeroInput` for every input, `run`, `getOutput`.
-/
namespace SecJoin
namespace Gmw
namespace Wires

/-- What an evaluation takes from elsewhere: the contents of fresh memory and of padding of both parties, and their OLEs. -/
structure Env where
  junk0 : Nat → Nat → Block
  junk1 : Nat → Nat → Block
  pad0 : Nat → Nat → Bool
  pad1 : Nat → Nat → Bool
  segs0 : List (List Block × List Block)
  segs1 : List (List Block × List Block)

/-- The circuit as `init` gets it: the number of wires, the bundles, and the levels made by `levelByAndDepth` of the circuit library. -/
structure Cir where
  wires : Nat
  ins : List (List Nat)
  outs : List (List Nat)
  levels : List (List Gate)

/-- `init` (Gmw.cpp 14-39), the calls that set inputs, and `run` (207-600) of both parties. -/
def setRun (E : Env) (n : Nat) (c : Cir) (ops0 ops1 : List Op) : Res (St × St) := do
  let s0 ← steps E.junk0 E.pad0 ops0 (init n c.wires c.ins c.outs (fun _ => []) 0)
  let s1 ← steps E.junk1 E.pad1 ops1 (init n c.wires c.ins c.outs (fun _ => []) 0)
  runBoth E.junk0 E.junk1 n c.levels E.segs0 E.segs1 s0 s1

end Wires
end Gmw
end SecJoin
