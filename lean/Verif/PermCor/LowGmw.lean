import Verif.PermCor.PrfGen
import Verif.GMW.Api
import Verif.GMW.Inline
/-!
# The evaluation of the LowMC circuit inside the generators of Perm/LowMCPerm.cpp
-/
namespace SecJoin
namespace PrfGen

/-- What the sender gives to its evaluation, LowMCPerm.cpp 45-50: a matrix with one block of 32 bytes per row, and zeros for the
`keys` round keys. -/
def lowOps0 (keys : Nat) (x : List LBlock) : List Gmw.Wires.Op :=
  .setInput 0 (x.map lowBytes) 32 32 :: (List.range keys).map fun i => .setZero (1 + i)

/-- What the receiver gives, LowMCPerm.cpp 82-98: zeros for the points, and each round key once for each of the `m` rows. -/
def lowOps1 (rks : List LBlock) (m : Nat) : List Gmw.Wires.Op :=
  .setZero 0 :: rks.zipIdx.map fun (k, i) => .setInput (1 + i) (List.replicate m (lowBytes k)) 32 32

/-- The 256 bits of a row of the output as a block. -/
def toLBlock (f : Nat → Bool) : LBlock := (BitVec.ofBoolListLE ((List.range 256).map f)).cast (by simp)

/-- The evaluation of the circuit by both parties, LowMCPerm.cpp 45-55 and 82-105, with `Gmw::init` from LowMCPerm.h: inputs, run,
output. The levels of the circuit come from the circuit library, the OLEs from the generator of correlations. -/
def lowGmw (junk0 junk1 : Nat → Nat → Gmw.Block) (pad0 pad1 : Nat → Nat → Bool) (cir : Gmw.Circuit) (levels : List (List Gmw.Gate))
    (segs0 segs1 : List (List Gmw.Block × List Gmw.Block)) (rks : List LBlock) (x : List LBlock) : Res (List LBlock × List LBlock) := do
  let m := x.length
  let s0 ← Gmw.Wires.steps junk0 pad0 (lowOps0 rks.length x) (Gmw.Wires.init m cir.wireCount cir.inputs cir.outputs (fun _ => []) 0)
  let s1 ← Gmw.Wires.steps junk1 pad1 (lowOps1 rks m) (Gmw.Wires.init m cir.wireCount cir.inputs cir.outputs (fun _ => []) 0)
  let (t0, t1) ← Gmw.Wires.runBoth junk0 junk1 m levels segs0 segs1 s0 s1
  let f0 ← Gmw.Wires.getOutput junk0 t0 0 m 32 32
  let f1 ← Gmw.Wires.getOutput junk1 t1 0 m 32 32
  .ok ((List.range m).map fun r => toLBlock (f0 r), (List.range m).map fun r => toLBlock (f1 r))

end PrfGen
end SecJoin
