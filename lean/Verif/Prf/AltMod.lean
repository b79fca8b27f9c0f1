import Verif.Prf.F2Code
import Verif.Prf.F3Code
import Verif.Prf.Proto
/-!
# The PRF and its protocol

Model of `/repo/secure-join/Prf/AltModPrf.cpp` and of `evaluate` of both parties in `AltModPrfProto.cpp`. Matrices are lists of
rows; matrices of digits hold pairs of high and low blocks. Memory that is not initialised is an arbitrary argument.
-/
namespace SecJoin
namespace AltMod

open Mod3 (Block)
open F2 (mkBlock)

/-- The fixed public codes, AltModPrf.cpp 8-69. -/
structure Pub where
  /-- `mGCode` -/
  g : List (List (List (List Byte)))
  /-- `mACode` -/
  a : F3.Code
  /-- `mBCode` -/
  b : List (List (List Byte))

/-- `oc::transpose128`. -/
def transpose128 (t : List Block) : List Block := (List.range 128).map fun j => mkBlock fun i => (t.getD i 0).getLsbD j

/-- The inputs `[128 k, 128 k + 128)`. -/
def chunk (xs : List Block) (k : Nat) : List Block := (xs.drop (128 * k)).take 128

/-- AltModPrf.cpp 192-198 and 222-233: part `q` of the expansion of a chunk, padded with zeros. A full chunk is encoded in groups
of eight. -/
def expandPart (P : Pub) (c : List Block) : Nat → List Block
  | 0 => c ++ List.replicate (128 - c.length) 0
  | q + 1 =>
    if c.length = 128 then (List.range 16).flatMap fun w => F2.encodeN (P.g.getD q []) ((c.drop (8 * w)).take 8)
    else c.map (F2.encode (P.g.getD q [])) ++ List.replicate (128 - c.length) 0

/-- `expandInputLinear(x, xt)`, AltModPrf.cpp 185-251, for a matrix of `rows` and `cols`. -/
def expandLinear (P : Pub) (xs : List Block) (rows cols : Nat) : Res (List (List Block)) := do
  throwIf (rows != 512)
  throwIf (cols != divCeil xs.length 128)
  let t := (List.range 4).map fun q => (List.range cols).map fun k => transpose128 (expandPart P (chunk xs k) q)
  .ok ((List.range 512).map fun r => (List.range cols).map fun k => ((t.getD (r / 128) []).getD k []).getD (r % 128) 0)

/-- `block(q, q)`. -/
def tweak (q : Nat) : Block := (BitVec.ofNat 64 q ++ BitVec.ofNat 64 q : BitVec (64 + 64))

/-- AltModPrf.cpp 144-161: part `q` of the random expansion of a chunk. `hash` is the fixed-key AES hash. The buffer behind the
chunk is not initialised, `junk`. -/
def expandPartAes (hash : Block → Block) (junk : List Block) (c : List Block) : Nat → List Block
  | 0 => c ++ junk
  | q + 1 => (c.map (· ^^^ tweak (q + 1)) ++ junk).map hash

/-- `expandInputAes(x, xt)`, AltModPrf.cpp 126-174. -/
def expandAes (hash : Block → Block) (junk : Nat → Nat → List Block) (xs : List Block) (rows cols : Nat) : Res (List (List Block)) := do
  throwIf (rows != 512)
  throwIf (cols != divCeil xs.length 128)
  let t := (List.range 4).map fun q => (List.range cols).map fun k => transpose128 (expandPartAes hash (junk q k) (chunk xs k) q)
  .ok ((List.range 512).map fun r => (List.range cols).map fun k => ((t.getD (r / 128) []).getD k []).getD (r % 128) 0)

/-- The blocks of the rows `[b, b + 128)` in column `ii`. -/
def column (v : List (List Block)) (b ii : Nat) : List Block := (List.range 128).map fun j => (v.getD (b + j) []).getD ii 0

/-- `compressB(v, y)`, AltModPrf.cpp 71-119, for an output of `n` blocks. -/
def compressB (P : Pub) (v : List (List Block)) (n : Nat) : Res (List Block) := do
  throwIf (v.length != 256)
  throwIf (v.any fun r => r.length != divCeil n 128)
  let t0 := (List.range (divCeil n 128)).map fun ii => transpose128 (column v 0 ii)
  let t1 := (List.range (divCeil n 128)).map fun ii => transpose128 (column v 128 ii)
  .ok ((List.range n).map fun i =>
    ((t0.getD (i / 128) []).getD (i % 128) 0) ^^^ F2.encode P.b ((t1.getD (i / 128) []).getD (i % 128) 0))

/-- The code `A`, called with the default batch size. `out` is the uninitialised output. -/
def codeA (P : Pub) (ek out : List (List (Block × Block))) (cols : Nat) : Res (List (List (Block × Block))) := do
  let (_, u) ← F3.encodeSlices P.a cols ek out 1024
  .ok u

/-- `eval(x, y)` after the expansion, AltModPrf.cpp 308-331: `key` has one bit per row, `n` is the number of inputs. -/
def evalExp (P : Pub) (key : Nat → Bool) (xt : List (List Block)) (out : List (List (Block × Block))) (n : Nat) : Res (List Block) := do
  let xk := (List.range 512).map fun i => (List.range (divCeil n 128)).map fun j => ((0 : Block), if key i then (xt.getD i []).getD j 0 else 0)
  let u ← codeA P xk out (divCeil n 128)
  compressB P (u.map fun r => r.map (·.2)) n

/-- `eval(x, y)`, AltModPrf.cpp 296-331, for `m` outputs, in the linear mode, which is the default. -/
def eval (P : Pub) (key : Nat → Bool) (xs : List Block) (out : List (List (Block × Block))) (m : Nat) : Res (List Block) := do
  throwIf (xs.length != m)
  let xt ← expandLinear P xs 512 (divCeil m 128)
  evalExp P key xt out xs.length

/-- `eval(x, y)` in the mode `Random`. -/
def evalAes (P : Pub) (hash : Block → Block) (junk : Nat → Nat → List Block) (key : Nat → Bool) (xs : List Block)
    (out : List (List (Block × Block))) (m : Nat) : Res (List Block) := do
  throwIf (xs.length != m)
  let xt ← expandAes hash junk xs 512 (divCeil m 128)
  evalExp P key xt out xs.length

/-! ## The protocol -/

/-- The correlations for the reduction modulo two, with the sender's side first. -/
inductive Mod2Cor where
  | ole (s r : List (List Ole))
  | f4 (s : List (List F4S)) (r : List (List F4R))

/-- `mod2Ole` or `mod2OtF4` of both parties. -/
def Mod2Cor.run : Mod2Cor → List (Block × Block) → List (Block × Block) → Res (List Block × List Block)
  | ole s r, v, u => mod2Ole v u s r
  | f4 s r, v, u => mod2F4 v u s r

/-- The size of the request is checked, AltModPrfProto.cpp 109-118 and 318-327. -/
def Mod2Cor.check (n : Nat) : Mod2Cor → Res Unit
  | ole s r => do
    throwIf (reqBits s != divCeil n 128 * 128 * 256 * 2)
    throwIf (reqBits r != divCeil n 128 * 128 * 256 * 2)
  | f4 s r => do
    throwIf (reqBits s != divCeil n 128 * 128 * 256)
    throwIf (reqBits r != divCeil n 128 * 128 * 256)

/-- A matrix in memory is cut into rows. -/
def rowsOf {α : Type} (rows cols : Nat) (l : List α) : List (List α) := (List.range rows).map fun r => (l.drop (r * cols)).take cols

/-- The end of `evaluate` of both parties, AltModPrfProto.cpp 176-207 and 391-422: code `A`, reduction modulo two, code `B`.
`outS` and `outR` are uninitialised. -/
def finish (P : Pub) (cor : Mod2Cor) (n : Nat) (ekS ekR outS outR : List (List (Block × Block))) : Res (List Block × List Block) := do
  let uS ← codeA P ekS outS (divCeil n 128)
  let uR ← codeA P ekR outR (divCeil n 128)
  let (vS, vR) ← cor.run uS.flatten uR.flatten
  let yS ← compressB P (rowsOf 256 (divCeil n 128) vS) n
  let yR ← compressB P (rowsOf 256 (divCeil n 128) vR) n
  .ok (yS, yR)

/-- The key OTs: for each bit of the key the generators of the party with the input and of the party with the choice bit. -/
structure KeyOts where
  snd : List (Gen × Gen)
  rcv : List Gen

/-- `evaluate` of both parties when only the receiver has an input, AltModPrfProto.cpp 97-207 and 303-423. `kS` is the sender's
key (share) and `kR` the receiver's share, all zero when the sender has the key. `n` is `mInputSize`, `mS` and `mR` are the sizes
of the outputs. Also given back: the key OTs for the next call. -/
def evalRecvInput (P : Pub) (G : Prg) (kS kR : List Bool) (ots : KeyOts) (cor : Mod2Cor) (xs : List Block) (n mS mR : Nat)
    (outS outR : List (List (Block × Block))) : Res ((List Block × List Block) × KeyOts) := do
  throwIf (n == 0)
  throwIf (xs.length != n)
  throwIf (mS != n)
  throwIf (mR != n)
  cor.check n
  let e ← expandLinear P xs 512 (divCeil xs.length 128)
  let (ekR, snd, ekS, rcv) ← keyMult G (divCeil n 128) kR ots.snd (e.map fun r => r.map fun b => (none, b)) kS ots.rcv
  let y ← finish P cor n ekS ekR outS outR
  .ok (y, ⟨snd, rcv⟩)

/-- `mod3Add(ek1, ek0, eka1, eka0)` on matrices of the same shape, mod3.h 152-180. -/
def addMat (a b : List (List (Block × Block))) : List (List (Block × Block)) :=
  List.zipWith (List.zipWith fun x y => Mod3.add x.1 x.2 y.1 y.2) a b

/-- `evaluate` of both parties when key and input are shared, AltModPrfProto.cpp 97-207 and 303-423. `otsR` are the key OTs with the
receiver's input, `otsS` those with the sender's; `tS`, `tR` the trit OTs. The two multiplications use different connections. -/
def evalShared (P : Pub) (G : Prg) (kS kR : List Bool) (otsR otsS : KeyOts) (tS : List (List TritS)) (tR : List (List TritR)) (cor : Mod2Cor)
    (xS xR : List Block) (n mS mR : Nat) (outS outR : List (List (Block × Block))) : Res ((List Block × List Block) × KeyOts × KeyOts) := do
  throwIf (n == 0)
  throwIf (xR.length != n)
  throwIf (xS.length != n)
  throwIf (mS != n)
  throwIf (mR != n)
  cor.check n
  let cols := divCeil n 128
  let eS ← expandLinear P xS 512 (divCeil xS.length 128)
  let eR ← expandLinear P xR 512 (divCeil xR.length 128)
  let (fS, fR) ← convert eS.flatten eR.flatten tS tR
  let (aR, sndR, aS, rcvR) ← keyMult G cols kR otsR.snd ((rowsOf 512 cols fR).map fun r => r.map fun b => (some b.1, b.2)) kS otsR.rcv
  let (bS, sndS, bR, rcvS) ← keyMult G cols kS otsS.snd ((rowsOf 512 cols fS).map fun r => r.map fun b => (some b.1, b.2)) kR otsS.rcv
  let y ← finish P cor n (addMat aS bS) (addMat bR aR) outS outR
  .ok (y, ⟨sndR, rcvR⟩, ⟨sndS, rcvS⟩)

/-- The modes, AltModPrf.h 19-29. -/
inductive KeyMode | senderOnly | shared
deriving DecidableEq
/-- The modes of the input. -/
inductive InputMode | receiverOnly | shared
deriving DecidableEq

/-- Which of the two runs `evaluate` chooses, or neither, AltModPrfProto.cpp 125-144 and 343-359. `share` says that the party's key
multiplication has a key share and `same` that both multiplications use the same key. -/
def branch (k : KeyMode) (i : InputMode) (share same : Bool) : Res InputMode :=
  if (k == .senderOnly || k == .shared) && i == .receiverOnly then .ok .receiverOnly
  else do
    throwIf (k != .shared && i != .shared)
    throwIf (!share)
    throwIf (!same)
    .ok .shared

end AltMod
end SecJoin
