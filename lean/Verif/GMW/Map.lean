import Verif.GMW.Call
/-!
# One evaluation by both parties with mapped inputs: `init`, `mapInput`, `mapOutput`, `run`

The aggregation tree (AggTree.cpp) gives its columns to `Gmw` as transposed matrices, which are used in place.
-/
namespace SecJoin
namespace Gmw
namespace Wires

/-- A column of a table: bit `j` of row `r` is `rows[r] j`, for `j < bits`. -/
structure Col where
  bits : Nat
  rows : List (Nat → Bool)

/-- The buffers of one party: the blocks in each row of the transposed matrices, the bits of the inputs beyond the last row, and the former
contents of the outputs. -/
structure Mem where
  strideIn : Nat → Nat
  strideOut : Nat → Nat
  padIn : Nat → Nat → Nat → Bool
  old : Nat → Nat → Block

/-- The bytes of a transposed matrix, Util/Matrix.h 196-260: bit `j` of row `r` is bit `r` of row `j` of the bytes. -/
def Col.blocks (c : Col) (stride : Nat) (pad : Nat → Nat → Bool) : List Block :=
  (List.range (c.bits * stride)).map fun k => mkBlock fun t =>
    if k % stride * 128 + t < c.rows.length then (c.rows.getD (k % stride * 128 + t) fun _ => false) (k / stride)
    else pad (k / stride) (k % stride * 128 + t)

/-- The memory of a party: a region for each input, then a region for each output that is mapped; `ob` are the bits of these outputs. -/
def Mem.heap (M : Mem) (ins : List Col) (ob : List Nat) (r : Nat) : List Block :=
  if r < ins.length then (ins.getD r ⟨0, []⟩).blocks (M.strideIn r) (M.padIn r)
  else (List.range (ob.getD (r - ins.length) 0 * M.strideOut (r - ins.length))).map (M.old (r - ins.length))

/-- All regions of `heap`. -/
def Mem.regions (M : Mem) (ins : List Col) (ob : List Nat) : List (List Block) := (List.range (ins.length + ob.length)).map (M.heap ins ob)

/-- `mapInput` for all inputs, `mapOutput` for the outputs. Simplified: the code interleaves the calls. -/
def Mem.ops (M : Mem) (n : Nat) (ins : List Col) (ob : List Nat) : List Op :=
  ((List.range ins.length).map fun i =>
    .mapInput i ⟨i, (ins.getD i ⟨0, []⟩).bits, 16 * M.strideIn i, (ins.getD i ⟨0, []⟩).rows.length⟩) ++
  (List.range ob.length).map fun i => .mapOutput i ⟨ins.length + i, ob.getD i 0, 16 * M.strideOut i, n⟩

/-- `init` (Gmw.cpp 14-39), the calls that map, and `run` (207-600) of both parties. -/
def mapRun (E : Env) (M0 M1 : Mem) (n : Nat) (c : Cir) (ob : List Nat) (ins0 ins1 : List Col) : Res (St × St) := do
  let h0 := M0.regions ins0 ob
  let h1 := M1.regions ins1 ob
  let s0 ← steps E.junk0 E.pad0 (M0.ops n ins0 ob) (init n c.wires c.ins c.outs (fun r => h0.getD r []) (ins0.length + ob.length))
  let s1 ← steps E.junk1 E.pad1 (M1.ops n ins1 ob) (init n c.wires c.ins c.outs (fun r => h1.getD r []) (ins1.length + ob.length))
  runBoth E.junk0 E.junk1 n c.levels E.segs0 E.segs1 s0 s1

/-- Bit `j` of row `r` of a transposed matrix. -/
def tBit (m : List Block) (stride j r : Nat) : Bool := (m.getD (j * stride + r / 128) 0).getLsbD (r % 128)

/-- The contents of the matrices of the outputs. -/
def Mem.read (M : Mem) (n k : Nat) (ob : List Nat) (t : St) : List Col :=
  (List.range ob.length).map fun i =>
    ⟨ob.getD i 0, (List.range n).map fun r j => tBit (t.heap (k + i)) (M.strideOut i) j r⟩

/-- All inputs and all outputs are mapped: the outputs of both parties. -/
def mapCall (E : Env) (M0 M1 : Mem) (n : Nat) (c : Cir) (ob : List Nat) (ins0 ins1 : List Col) : Res (List Col × List Col) := do
  let (t0, t1) ← mapRun E M0 M1 n c ob ins0 ins1
  .ok (M0.read n ins0.length ob t0, M1.read n ins1.length ob t1)

/-- A copy of all outputs by `getOutput` (Gmw.h 183-188) into matrices of the given numbers of bits. -/
def getCols (junk : Nat → Nat → Block) (n : Nat) (ob : List Nat) (t : St) : Res (List Col) :=
  mapRes (fun i => do
    let f ← getOutputBin junk t i n (ob.getD i 0)
    .ok ⟨ob.getD i 0, (List.range n).map fun r => f r⟩) (List.range ob.length)

/-- All inputs are mapped, the outputs are copied, as in `computeLeaf` (AggTree.cpp 850-903). -/
def leafCall (E : Env) (M0 M1 : Mem) (n : Nat) (c : Cir) (ob : List Nat) (ins0 ins1 : List Col) : Res (List Col × List Col) := do
  let (t0, t1) ← mapRun E M0 M1 n c [] ins0 ins1
  let o0 ← getCols E.junk0 n ob t0
  let o1 ← getCols E.junk1 n ob t1
  .ok (o0, o1)

end Wires
end Gmw
end SecJoin
