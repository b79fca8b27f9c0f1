import Verif.Sort.Radix
import Verif.GMW.Call
/-!
# The radix sort with the evaluation of its circuits

`Radix.lean` takes the results of the two circuits of a round from the functionality of GMW. Here both parties set the inputs, run the
protocol on them and read the outputs.
-/
namespace SecJoin
namespace Radix
open Gmw.Wires (Env Cir setRun getOutput getOutputBin)

/-- `genValMasks2` up to the bit injection, RadixSort.cpp 413-535, of both parties: for digits of one bit the step is local, else the digits
are the input of the one-hot circuit (455-457). -/
def oneHotGmw (E : Env) (c : Cir) (n L : Nat) (k0 k1 : List Byte) : Res (List Byte × List Byte) :=
  if L = 1 then .ok (pack4 (k0.map (oneBitRow 0)), pack4 (k1.map (oneBitRow 1)))
  else do
    let (t0, t1) ← setRun E n c [.setInput 0 (k0.map fun b => [b]) 1 1] [.setInput 0 (k1.map fun b => [b]) 1 1]
    let f0 ← getOutputBin E.junk0 t0 0 n (2 ^ L)
    let f1 ← getOutputBin E.junk1 t1 0 n (2 ^ L)
    let r0 := (List.range n).map fun i => bitRow (8 * divCeil (2 ^ L) 8) (f0 i)
    let r1 := (List.range n).map fun i => bitRow (8 * divCeil (2 ^ L) 8) (f1 i)
    if L = 2 then .ok (pack2 r0.flatten, pack2 r1.flatten) else .ok (r0.flatten, r1.flatten)

/-- The word with the given bits. -/
def toWord (f : Nat → Bool) : BitVec 32 := (BitVec.ofBoolListLE ((List.range 32).map f)).cast (by simp)

/-- The end of `hadamardSum`, RadixSort.cpp 260-277: the number of shares must be that of the instances; party `p` sets input `p` to zero
and the other one to its words; output 0 is read as words. -/
def arithToBin (E : Env) (c : Cir) (n : Nat) (sh0 sh1 : List (BitVec 32)) : Res (List (BitVec 32) × List (BitVec 32)) := do
  throwIf (n != sh0.length)
  throwIf (n != sh1.length)
  let (t0, t1) ← setRun E n c [.setZero 0, .setInput 1 (sh0.map u32Bytes) 4 4] [.setZero 1, .setInput 0 (sh1.map u32Bytes) 4 4]
  let f0 ← getOutput E.junk0 t0 0 n 4 4
  let f1 ← getOutput E.junk1 t1 0 n 4 4
  .ok ((List.range n).map fun i => toWord (f0 i), (List.range n).map fun i => toWord (f1 i))

/-- `hadamardSum`, RadixSort.cpp 230-280. -/
def hadamardGmw (E : Env) (c : Cir) (n L2 : Nat) (f0 f1 : List Byte) (s0 s1 : List (BitVec 32)) (otA otB : List (List Ot)) :
    Res (List (BitVec 32) × List (BitVec 32)) := do
  let a ← hadLoop f0 f1 s1 n L2 otA 0
  let b ← hadLoop f1 f0 s0 n L2 otB 0
  let sh0 := List.zipWith (fun (x y : BitVec 32 × BitVec 32) => y.2 + x.1) a b
  let sh1 := List.zipWith (fun (x y : BitVec 32 × BitVec 32) => x.2 + y.1) a b
  arithToBin E c n sh0 sh1

/-- What a round takes from elsewhere: memory and OLEs for its two circuits, and OTs. -/
structure RoundEnv where
  hot : Env
  inj : List (List Ot)
  otA : List (List Ot)
  otB : List (List Ot)
  add : Env

/-- `genBitPerm`, RadixSort.cpp 725-790. `hot` and `add` are the circuits made by `init`, 1013-1014. -/
def genBitPermGmw (hot add : Cir) (n L : Nat) (k0 k1 : List Byte) (r : RoundEnv) : Res (List (BitVec 32) × List (BitVec 32)) := do
  throwIf (decide (L > 8))
  throwIf (k0.length != n || k1.length != n)
  let (b0, b1) ← oneHotGmw r.hot hot n L k0 k1
  let (f0, f1) ← bitInjection 1 (n * 2 ^ L) 32 ⟨b0.length, [b0]⟩ ⟨b1.length, [b1]⟩ r.inj
  let s0 := aggregateSum (rowsOf (2 ^ L) f0 n) (2 ^ L) 0
  let s1 := aggregateSum (rowsOf (2 ^ L) f1 n) (2 ^ L) 1
  hadamardGmw r.add add n (2 ^ L) b0 b1 s0.flatten s1.flatten r.otA r.otB

/-- The rounds after the first, RadixSort.cpp 1162-1211, see `genPermLoop`. -/
def genPermLoopGmw (hot add : Cir) (n L : Nat) (k0 k1 : Mat Row) : Nat → List (ComposedPerm × ComposedPerm × RoundEnv) → Nat →
    List (BitVec 32) → List (BitVec 32) → Res (List (BitVec 32) × List (BitVec 32))
  | 0, _, _, d0, d1 => .ok (d0, d1)
  | _ + 1, [], _, _, _ => .error .ub
  | left + 1, (c0, c1, r) :: rs, kIdx, d0, d1 => do
    let sk0 ← extract kIdx L k0
    let sk1 ← extract kIdx L k1
    let (c0, c1) ← ComposedPerm.derandomizeBoth c0 c1 d0 d1
    let (c0, c1, o0, o1) ← ComposedPerm.applyBoth c0 c1 .inverse (byteCol sk0) (byteCol sk1)
    let ssk0 ← colBytes o0
    let ssk1 ← colBytes o1
    let (p0, p1) ← genBitPermGmw hot add n L ssk0 ssk1 r
    let (_, _, d0, d1) ← ComposedPerm.composeBoth c0 c1 p0 p1
    genPermLoopGmw hot add n L k0 k1 left rs (kIdx + L) d0 d1

/-- `genPerm`, RadixSort.cpp 1095-1219, see `genPerm`. -/
def genPermGmw (hot add : Cir) (n bits L : Nat) (k0 k1 : BinMatrix) (first : RoundEnv)
    (rest : List (ComposedPerm × ComposedPerm × RoundEnv)) : Res (List (BitVec 32) × List (BitVec 32)) := do
  checkKey n bits k0
  checkKey n bits k1
  let sk0 ← extract 0 L k0.mat
  let sk1 ← extract 0 L k1.mat
  if divCeil bits L = 0 then .error .ub
  else do
    let (d0, d1) ← genBitPermGmw hot add n L sk0 sk1 first
    genPermLoopGmw hot add n L k0.mat k1.mat (divCeil bits L - 1) rest L d0 d1

end Radix
end SecJoin
