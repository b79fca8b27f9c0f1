import Verif.PermCor.Model
import Verif.Prf.AltMod
/-!
# Generators of permutation correlations

Model of `/repo/secure-join/Perm/AltModPerm.{h,cpp}`, `AltModComposedPerm.{h,cpp}`, `LowMCPerm.{h,cpp}` and `InsecurePerm.h`. The debug
branches (`mDebug`, off by default) are left out. `InsecurePerm.h` is included by no file and has one parenthesis too many in lines
98 and 137; it is modelled without them.
-/
namespace SecJoin
namespace PrfGen

open Mod3 (Block)
open AltMod

/-! ## AltMod -/

/-- The 16 bytes of a block in memory. -/
def blockBytes (b : Block) : Row := (List.range 16).map fun k => b.extractLsb' (8 * k) 8

/-- The matrix of `n` rows and `c` blocks with the memory `l`, as rows of bytes. -/
def toRows (n c : Nat) (l : List Block) : List Row := (rowsOf n c l).map fun r => r.flatMap blockBytes

/-- `oc::block(hi, lo)` for two `u64`. -/
def blk (hi lo : Nat) : Block := (BitVec.ofNat 64 hi ++ BitVec.ofNat 64 lo : BitVec (64 + 64))

/-- What both parties' `init` leaves, AltModPerm.h 39-50 and 102-114: `mN`, `mBytesPerRow` and the `mInputSize` of the PRF. The model
has one for both parties, as they call `init` with the same arguments. -/
structure Setup where
  n : Nat
  bytes : Nat
  inputSize : Nat

/-- `init(n, bytesPerRow, ..)`. Before this call all three are zero. -/
def Setup.init (n bytes : Nat) : Setup := ⟨n, bytes, n * divCeil bytes 16⟩

/-- The sender's checks, AltModPerm.cpp 48-60. -/
def sendCheck (S : Setup) (perm : Perm) : Res Unit := do
  throwIf (S.inputSize == 0)
  throwIf (S.n == 0)
  throwIf (perm.size != S.n)

/-- The loop AltModPerm.cpp 70-79. `perm` has `n` entries (checked), so that the index is in range. -/
def sendPoints (n c : Nat) (pi : List Nat) : List Block := (List.range n).flatMap fun i => (List.range c).map fun j => blk j (pi.getD i 0)

/-- The loop AltModPerm.cpp 139-147. -/
def recvPoints (n c : Nat) : List Block := (List.range n).flatMap fun i => (List.range c).map fun j => blk j i

/-- What the parties bring to the PRF protocol, see `evalRecvInput`: the permutation's receiver has the key. `outA` is the
uninitialised memory in the receiver's own evaluation. -/
structure Prf where
  P : Pub
  G : Prg
  key : List Bool
  ots : KeyOts
  cor : Mod2Cor
  outS : List (List (Block × Block))
  outR : List (List (Block × Block))
  outA : List (List (Block × Block))

/-- Both parties' `generate`, AltModPerm.cpp 42-84 and 112-152. `aes` is AES, `hk` the key the sender draws and sends; `s`, `r` are
the objects `dst`, of which the offsets are kept. -/
def generate (aes : Block → Block → Block) (E : Prf) (hk : Block) (S : Setup) (perm : Perm) (s : PermCorSender) (r : PermCorReceiver) :
    Res (PermCorSender × PermCorReceiver × KeyOts) := do
  sendCheck S perm
  throwIf (S.n == 0)
  let c := divCeil S.bytes 16
  let x := (sendPoints S.n c perm.pi).map (aes hk)
  let (y, ots) ← evalRecvInput E.P E.G E.key (List.replicate 512 false) E.ots E.cor x S.inputSize (S.n * c) (S.n * c) E.outS E.outR
  let a := (recvPoints S.n c).map (aes hk)
  let a ← eval E.P (fun i => E.key.getD i false) a E.outA a.length
  .ok ({ s with perm := perm, cols := c, delta := toRows S.n c y.2 }, { r with cols := c, a := toRows S.n c a, b := toRows S.n c y.1 }, ots)

/-! ## Both directions -/

/-- `when_all_ready`: a task that throws ends, and its exception stays in the result, which is not looked at. `old` is the object it
works on; a task that throws in its first checks has not changed it. -/
def whenReady {α : Type} (old : α) : Res α → Res α
  | .error .throw => .ok old
  | r => r

/-- What one party's call of `AltModComposedPerm::generate` returns, AltModComposedPerm.cpp 18-46, when `snd` and `rcv` are the results
of its two tasks. -/
def composedReturns (S : Setup) (idx : Nat) (dst : ComposedPerm) (snd : Res PermCorSender) (rcv : Res PermCorReceiver) : Res ComposedPerm := do
  throwIf (S.inputSize == 0)
  let s ← whenReady dst.snd snd
  let r ← whenReady dst.rcv rcv
  .ok ⟨idx, s, r⟩

/-- Both parties' calls when no task throws, AltModComposedPerm.cpp 12-46: party 1 is sender on the first and receiver on the second
connection, party 0 the other way round. `E0` and `h0` belong to the direction with sender 0. -/
def composedBoth (aes : Block → Block → Block) (E0 E1 : Prf) (h0 h1 : Block) (S : Setup) (p0 p1 : Perm) (d0 d1 : ComposedPerm) :
    Res (ComposedPerm × ComposedPerm) := do
  let (s1, r0, _) ← generate aes E1 h1 S p1 d1.snd d0.rcv
  let (s0, r1, _) ← generate aes E0 h0 S p0 d0.snd d1.rcv
  let c0 ← composedReturns S 0 d0 (.ok s0) (.ok r0)
  let c1 ← composedReturns S 1 d1 (.ok s1) (.ok r1)
  .ok (c0, c1)

/-! ## LowMC -/

/-- `LowMC2<>::block`, LowMC.h 26-44: a `std::bitset<256>`. -/
abbrev LBlock := BitVec 256

/-- `lowBlock(j + i << 32)` for two `u64`, LowMCPerm.cpp 41 and 120. The sum is shifted, as `+` binds stronger than `<<`. -/
def lowPoint (j i : Nat) : LBlock := ((BitVec.ofNat 64 j + BitVec.ofNat 64 i) <<< 32).setWidth 256

/-- The 32 bytes of a block in memory. -/
def lowBytes (b : LBlock) : Row := (List.range 32).map fun k => b.extractLsb' (8 * k) 8

/-- The copies with `copyBytesMin`, LowMCPerm.cpp 54-58, 104-107 and 124: of each row of `c` large blocks the first bytes, as many as
fit into `16 * c16`. The rest of a longer destination stays as it is (zero after `resize`). -/
def lowRows (n c c16 : Nat) (l : List LBlock) : List Row :=
  (rowsOf n c l).map fun r =>
    let b := r.flatMap lowBytes
    b.take (16 * c16) ++ List.replicate (16 * c16 - b.length) 0

/-- The loop LowMCPerm.cpp 34-43. -/
def lowSendPoints (n c : Nat) (pi : List Nat) : List LBlock := (List.range n).flatMap fun i => (List.range c).map fun j => lowPoint j (pi.getD i 0)

/-- The loop LowMCPerm.cpp 112-125. -/
def lowRecvPoints (n c : Nat) : List LBlock := (List.range n).flatMap fun i => (List.range c).map fun j => lowPoint j i

/-- Both parties' `generate`, LowMCPerm.cpp 24-127. `enc` is the cipher under the receiver's key; `gmw` is the run of the circuit on the
sender's points and the receiver's round keys and gives both parties' output shares (see C24 for the run). -/
def lowGenerate (enc : LBlock → LBlock) (gmw : List LBlock → Res (List LBlock × List LBlock)) (n bytes : Nat) (perm : Perm)
    (s : PermCorSender) (r : PermCorReceiver) : Res (PermCorSender × PermCorReceiver) := do
  throwIf (perm.size != n)
  throwIf (n == 0)
  let c := divCeil bytes 32
  let c16 := divCeil bytes 16
  let (d, b) ← gmw (lowSendPoints n c perm.pi)
  let a := (lowRecvPoints n c).map enc
  .ok ({ s with perm := perm, cols := c16, delta := lowRows n c c16 d }, { r with cols := c16, a := lowRows n c c16 a, b := lowRows n c c16 b })

/-! ## The insecure mock -/

/-- `(0xcc ^ i) + i * 3`, stored in a byte, InsecurePerm.h 69 and 103. -/
def mockByte (i : Nat) : Byte := BitVec.ofNat 8 ((0xcc ^^^ i) + i * 3)

/-- A matrix of `n` rows and `c` bytes, filled in memory order. -/
def mockRows (n c : Nat) : List Row := (List.range n).map fun i => (List.range c).map fun j => mockByte (i * c + j)

/-- The receiver's `apply`, InsecurePerm.h 57-70: message and output. -/
def mockRecv (x : Mat Row) (outRows outCols : Nat) : Res (Mat Row × Mat Row) := do
  throwIf (x.rows.length != outRows || x.cols != outCols)
  .ok (x, ⟨outCols, mockRows outRows outCols⟩)

/-- The sender's `apply` without a share of the input, InsecurePerm.h 85-104. -/
def mockSend (pi : Perm) (op : PermOp) (outRows outCols : Nat) (msg : Mat Row) : Res (Mat Row) := do
  throwIf (outRows != pi.size)
  throwIf (msg.rows.length != pi.size || msg.cols != outCols)
  let o ← pi.apply msg (PermCorSender.zeros outRows outCols) op
  .ok ⟨outCols, List.zipWith xorRow o.rows (mockRows outRows outCols)⟩

/-- The sender's `apply` with a share `x2` of the input, InsecurePerm.h 124-157. The loops run over the rows of `x2` and of the output;
reading outside of `x2Perm` is undefined behaviour. -/
def mockSend2 (pi : Perm) (op : PermOp) (x2 : Mat Row) (outRows outCols : Nat) (msg : Mat Row) : Res (Mat Row) := do
  let sout ← mockSend pi op outRows outCols msg
  let step := match op with
    | .regular => Perm.regStep pi.pi x2.rows
    | .inverse => Perm.invStep pi.pi x2.rows
  let x2Perm ← Perm.loop1 step x2.rows.length 0 (PermCorSender.zeros x2.rows.length x2.cols).rows
  if outRows ≤ x2.rows.length ∧ outCols ≤ x2.cols then
    .ok ⟨outCols, List.zipWith xorRow sout.rows (x2Perm.map fun r => r.take outCols)⟩
  else .error .ub

/-- Both parties run the mock. -/
def mockBoth (pi : Perm) (op : PermOp) (xr : Mat Row) (xs : Option (Mat Row)) : Res (Mat Row × Mat Row) := do
  let (msg, rout) ← mockRecv xr xr.rows.length xr.cols
  let sout ← match xs with
    | none => mockSend pi op xr.rows.length xr.cols msg
    | some x => mockSend2 pi op x xr.rows.length xr.cols msg
  .ok (sout, rout)

end PrfGen
end SecJoin
