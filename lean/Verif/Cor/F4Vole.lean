import Verif.Cor.Compress
import Verif.Cor.F4
/-!
# The silent VOLE over the field of four elements

Model of `/repo/secure-join/CorGenerator/F4Vole/SilentF4VoleSender.h` and `SilentF4VoleReceiver.h`. Both parties' code is run side by side.

From libOTe, not in the repository:
* the LPN parameters of `syndromeDecodingConfigure` are arbitrary (`Params`);
* the punctured PRF is replaced by its contract: the sender holds arbitrary leaves (passed through `fromBlock`), the receiver the same
  leaves with the programmed value added at each of its points;
* the linear code is an arbitrary straight-line program over the operations of the context (`EncOp`);
* the noisy VOLE for the base correlations is its contract `a = b + c * delta`.
-/
namespace SecJoin
namespace F4Vole

open F4 (Block)
open Cor (maskTwo)

/-- What `syndromeDecodingConfigure` and `mGen.configure` choose for a request: `mNumPartitions`, `mNoiseVecSize` and
`mGen.baseOtCount()`. `mSizePer` is only handed to the library. -/
structure Params where
  parts : Nat
  noise : Nat
  baseOts : Nat
deriving Repr, DecidableEq

/-- `mMultType` as far as `switch (mMultType)` tells the codes apart (Sender 430-456, Receiver 575-606). -/
inductive Mult where
  | exConv
  | tungsten
  | other
deriving Repr, DecidableEq

/-! ## The linear code -/

/-- What the encoders of the library do to their vector through the context, at positions that do not depend on the data:
`plus`, `mulConst` (F4CoeffCtx.h 31-34, 123-127), `copy`, `zero`. -/
inductive EncOp where
  | plus (ret lhs rhs : Nat)
  | mulConst (ret x : Nat)
  | copy (ret x : Nat)
  | zero (ret : Nat)
deriving Repr, DecidableEq

/-- One operation of the encoder. -/
def EncOp.run (w : Bool) (m : List Block) : EncOp → Res (List Block)
  | .plus ret lhs rhs => do
    let x ← rd m lhs
    let y ← rd m rhs
    wr m ret (x ^^^ y)
  | .mulConst ret x => do
    let x ← rd m x
    let y ← F4.mulConst w x
    wr m ret y
  | .copy ret x => do
    let x ← rd m x
    wr m ret x
  | .zero ret => wr m ret 0

/-- `encoder.dualEncode` on a vector, with `temp` further cells (`mEncodeTemp`, here zero at the start), followed by
`mCtx.resize(mB, mRequestSize)` (Sender 430-459, Receiver 575-608). Growing the vector would leave uninitialised blocks. -/
def encode (w : Bool) (mult : Mult) (temp : Nat) (ops : List EncOp) (req : Nat) (v : List Block) : Res (List Block) := do
  throwIf (mult == .other)
  let m ← ops.foldlM (EncOp.run w) (v ++ List.replicate temp 0)
  if v.length < req then .error .ub else .ok (m.take req)

/-! ## Sender -/

/-- The members of `SilentF4VoleSender` that the functions below use. `configured` is `mState != State::Default`, `hasBase` is
`mGen.hasBaseOts()`. -/
structure Sender where
  configured : Bool
  req : Nat
  par : Params
  malicious : Bool
  hasBase : Bool
  baseB : List Block
  mult : Mult
deriving Repr, DecidableEq

/-- `configure`, Sender 224-241. The library's `mGen.configure` drops base OTs set earlier. -/
def Sender.configure (lpn : Nat → Params) (s : Sender) (req : Nat) : Sender :=
  { s with configured := true, req := req, par := lpn req, hasBase := false }

/-- `baseVoleCount`, Sender 118-121. -/
def Sender.baseVoleCount (s : Sender) : Nat := s.par.parts + if s.malicious then 1 else 0

/-- `setSilentBaseOts`, Sender 258-288; of the base OTs only the number matters here. -/
def Sender.setBase (s : Sender) (nOts : Nat) (b : List Block) : Res Sender := do
  throwIf (!s.configured)
  throwIf (nOts != s.par.baseOts)
  throwIf (b.length != s.baseVoleCount)
  .ok { s with hasBase := true, baseB := b.map fun x => ((0 : Block) ^^^ x) &&& maskTwo }

/-! ## Receiver -/

/-- The members of `SilentF4VoleReceiver` that the functions below use. `points` is `mS`. -/
structure Receiver where
  configured : Bool
  req : Nat
  par : Params
  malicious : Bool
  hasBase : Bool
  baseA : List Block
  baseC : List (BitVec 8)
  points : List Nat
  mult : Mult
deriving Repr, DecidableEq

/-- `configure`, Receiver 270-287. -/
def Receiver.configure (lpn : Nat → Params) (r : Receiver) (req : Nat) : Receiver :=
  { r with configured := true, req := req, par := lpn req, hasBase := false }

/-- `baseVoleCount`, Receiver 122-125. -/
def Receiver.baseVoleCount (r : Receiver) : Nat := r.par.parts + if r.malicious then 1 else 0

/-- A scalar that is not zero, Receiver 340-344; the draws of the generator are a list, at the end of which the loop goes on forever. -/
def drawNonZero : List Block → Res (BitVec 8 × List Block)
  | [] => .error .diverge
  | d :: ds => if F4.fromBlockG d = 0 then drawNonZero ds else .ok (F4.fromBlockG d, ds)

/-- The loop of Receiver 338-353; the context says that it is a field. -/
def drawMany : Nat → List Block → Res (List (BitVec 8))
  | 0, _ => .ok []
  | n + 1, ds => do
    let (c, ds) ← drawNonZero ds
    let cs ← drawMany n ds
    .ok (c :: cs)

/-- `sampleBaseVoleVals`, Receiver 317-384. `pts` are the points of the punctured PRF, which the library sampled. -/
def Receiver.sampleVals (r : Receiver) (draws : List Block) (pts : List Nat) : Res (Receiver × List (BitVec 8)) := do
  throwIf (!r.configured)
  let c ← drawMany r.par.parts draws
  throwIf r.malicious
  .ok ({ r with baseC := c, points := pts }, c)

/-- `setSilentBaseOts`, Receiver 388-408. The length of `a` is not checked. -/
def Receiver.setBase (r : Receiver) (nOts : Nat) (a : List Block) : Res Receiver := do
  throwIf (!r.configured)
  throwIf (nOts != r.par.baseOts)
  .ok { r with hasBase := true, baseA := a.map fun x => x &&& maskTwo }

/-! ## The protocol -/

/-- `mGen.expand` on the sender's side: the leaves. -/
def leaves (W : Nat → Block) (noise : Nat) : List Block := (List.range noise).map fun j => F4.fromBlockF (W j)

/-- `mA[pnt] = mA[pnt] + v[i]` for every point (Receiver 536-541); also the contract of `mGen.expand` on the receiver's side. -/
def addAt (m : List Block) : List (Nat × Block) → Res (List Block)
  | [] => .ok m
  | (p, v) :: t => do
    let x ← rd m p
    let m ← wr m p (x ^^^ v)
    addAt m t

/-- `mA[mS[i]] = mA[mS[i]] | block(0, mBaseC[i].mVal)`, Receiver 550-551. -/
def orAt (m : List Block) : List (Nat × BitVec 8) → Res (List Block)
  | [] => .ok m
  | (p, c) :: t => do
    let x ← rd m p
    let m ← wr m p (x ||| c.setWidth 128)
    orAt m t

/-- The first `n` entries of a vector that is read up to there. -/
def firstN {α : Type} (l : List α) (n : Nat) : Res (List α) := if l.length < n then .error .ub else .ok (l.take n)

/-- The sparse vectors of both parties, before the code: Sender 392-409, Receiver 505-551. A failed assertion of 543-548 is undefined
behaviour (of release builds). -/
def sparse (s : Sender) (r : Receiver) (W : Nat → Block) : Res (List Block × List Block) := do
  let beta ← firstN s.baseB s.par.parts
  let B := leaves W s.par.noise
  let A ← addAt B (r.points.zip beta)
  let pts ← firstN r.points r.par.parts
  let ba ← firstN r.baseA r.par.parts
  let A ← addAt A (pts.zip ba)
  if A.any (fun x => x.setWidth 64 &&& 3 != 0) then .error .ub
  else do
    let bc ← firstN r.baseC r.par.parts
    let A ← orAt A (pts.zip bc)
    .ok (A, B)

/-- `silentSendInplace` (Sender 360-463) and `silentReceiveInplace` (Receiver 475-615) for parties that hold their base correlations and
do not run the debug checks. Parties of different parameters are not modelled: the library's protocol is only defined for equal ones. -/
def silentInplace (w : Bool) (s : Sender) (r : Receiver) (n : Nat) (W : Nat → Block) (temp : Nat) (ops : List EncOp) :
    Res (List Block × List Block) := do
  throwIf (!s.configured || !r.configured)
  throwIf (decide (s.req < n) || decide (r.req < n))
  throwIf (!s.hasBase || !r.hasBase)
  let (A, B) ← sparse s r W
  throwIf (s.malicious || r.malicious)
  let B ← encode w s.mult temp ops s.req B
  let A ← encode w r.mult temp ops r.req A
  .ok (A, B)

/-- `silentSend` (Sender 295-314) and `silentReceive` (Receiver 413-430): the first `n` correlations. -/
def silent (w : Bool) (s : Sender) (r : Receiver) (n : Nat) (W : Nat → Block) (temp : Nat) (ops : List EncOp) :
    Res (List Block × List Block) := do
  let (A, B) ← silentInplace w s r n W temp ops
  .ok (A.take n, B.take n)

/-! ## Chosen values -/

/-- The positions `(i, j)` in the order of the loops of Sender 333-343 and Receiver 451-460. -/
def slots (n : Nat) : List (Nat × Nat) :=
  (List.range (divCeil n 4)).flatMap fun i => (List.range (min (n - i * 4) 4)).map fun j => (i, j)

/-- One turn of the loop of Receiver 454-459, with the counter `ii`. -/
def diffStep (A : List Block) (c : List (BitVec 8)) (st : List (BitVec 8) × Nat) (ij : Nat × Nat) : Res (List (BitVec 8) × Nat) := do
  let a ← rd A st.2
  let ci ← rd c st.2
  if 4 ≤ ci.toNat then .error .ub
  else do
    let d := (a.setWidth 8 ^^^ ci) &&& 3
    let x ← rd st.1 ij.1
    let y ← wr st.1 ij.1 (x ||| (d <<< (ij.2 * 2)))
    .ok (y, st.2 + 1)

/-- The message of `receiveChosen`, Receiver 450-460. -/
def diffOf (A : List Block) (c : List (BitVec 8)) (n : Nat) : Res (List (BitVec 8)) := do
  let st ← (slots n).foldlM (diffStep A c) (List.replicate (divCeil n 4) 0, 0)
  .ok st.1

/-- One turn of the loop of Sender 336-342. -/
def fixStep (w : Bool) (delta : Block) (diff : List (BitVec 8)) (st : List Block × Nat) (ij : Nat × Nat) : Res (List Block × Nat) := do
  let x ← rd diff ij.1
  let u ← F4.mul w delta ((x >>> (2 * ij.2)) &&& 3)
  let b ← rd st.1 st.2
  let y ← wr st.1 st.2 (b ^^^ u)
  .ok (y, st.2 + 1)

/-- What `sendChosen` makes of the message, Sender 330-343. A message of another length fails in `recv`. -/
def fixup (w : Bool) (delta : Block) (b : List Block) (diff : List (BitVec 8)) : Res (List Block) := do
  throwIf (diff.length != divCeil b.length 4)
  let st ← (slots b.length).foldlM (fixStep w delta diff) (b, 0)
  .ok st.1

/-- `sendChosen` (Sender 316-349) and `receiveChosen` (Receiver 436-470). -/
def chosen (w : Bool) (s : Sender) (r : Receiver) (delta : Block) (c : List (BitVec 8)) (n : Nat) (W : Nat → Block) (temp : Nat)
    (ops : List EncOp) : Res (List Block × List Block) := do
  let (A, B) ← silentInplace w s r n W temp ops
  let diff ← diffOf A c n
  let b ← fixup w delta (B.take n) diff
  .ok (A.take n, b)

/-! ## Base correlations -/

/-- The library's noisy VOLE: `a = b + c * delta` (Sender 181, 190, 203; Receiver 224, 234, 250). -/
def noisyVole (w : Bool) (delta : Block) (c : List (BitVec 8)) (b : List Block) : Res (List Block) :=
  mapRes (fun p => do
    let u ← F4.mul w delta p.1
    .ok (p.2 ^^^ u)) (c.zip b)

/-- `genSilentBaseOts` of both parties (Sender 127-217, Receiver 142-264): `b` is the sender's output of the noisy VOLE. -/
def genBase (w : Bool) (s : Sender) (r : Receiver) (delta : Block) (draws : List Block) (pts : List Nat) (b : Nat → Block) :
    Res (Sender × Receiver) := do
  throwIf (!s.configured || !r.configured)
  let (r, c) ← r.sampleVals draws pts
  let b := (List.range s.baseVoleCount).map b
  let a ← noisyVole w delta c b
  let s ← s.setBase s.par.baseOts b
  let r ← r.setBase r.par.baseOts a
  .ok (s, r)

/-- The start of `silentSendInplace` and `silentReceiveInplace` (Sender 374-389, Receiver 485-499): configure and make base
correlations where that has not been done. -/
def prepare (w : Bool) (lpn : Nat → Params) (s : Sender) (r : Receiver) (delta : Block) (n : Nat) (draws : List Block) (pts : List Nat)
    (b : Nat → Block) : Res (Sender × Receiver) := do
  let s := if s.configured then s else s.configure lpn n
  let r := if r.configured then r else r.configure lpn n
  throwIf (decide (s.req < n) || decide (r.req < n))
  if s.hasBase && r.hasBase then .ok (s, r)
  else genBase w s r delta draws pts b

/-! ## A batch of F4-bit OTs -/

/-- `F4BitOtBatch::getBaseRequest`, F4BitOtBatch.cpp 49-69, for both parties: the configured parties and the receiver's scalars. -/
def batchRequest (lpn : Nat → Params) (s : Sender) (r : Receiver) (size : Nat) (draws : List Block) (pts : List Nat) :
    Res (Sender × Receiver × List (BitVec 8)) := do
  let (r, c) ← (r.configure lpn size).sampleVals draws pts
  .ok (s.configure lpn size, r, c)

/-- `F4BitOtBatch::setBase` (72-92) with the slices `a`, `b` of the base correlations, then `recvTask` and `sendTask` (307-442) without mock and
debug: the code is set to Tungsten, the correlations are expanded and compressed. -/
def batchTask (w : Bool) (H : Block → Block) (s : Sender) (r : Receiver) (delta : Block) (a b : List Block) (W : Nat → Block) (temp : Nat)
    (ops : List EncOp) : Res (List (List Block) × List Block × List Block × List Block) := do
  let s ← s.setBase s.par.baseOts b
  let r ← r.setBase r.par.baseOts a
  let (A, B) ← silentInplace w { s with mult := .tungsten } { r with mult := .tungsten } r.req W temp ops
  let ots ← Cor.f4Send w H delta B
  let m ← Cor.f4Recv H A
  .ok (ots, m)

/-! ## Debug checks -/

/-- The loop over the base correlations in `checkRT`, Receiver 686-709. `sorted` holds `mS[index[·]]`. -/
def checkBase (w : Bool) (delta : Block) (r : Receiver) (A baseB : List Block) (sorted : List Nat) (i : Nat) : Res Unit := do
  let bi ← rd baseB i
  let ai ← rd r.baseA i
  let ci ← rd r.baseC i
  let t1 ← F4.mul w (delta &&& maskTwo) ci
  throwIf (((bi &&& maskTwo) ^^^ (ai &&& maskTwo)) != t1)
  if i < r.par.parts then do
    let p ← rd r.points i
    let x ← rd A p
    throwIf (ci != (x.setWidth 8 &&& 3))
    if i = 0 then .ok ()
    else do
      let u ← rd sorted (i - 1)
      let v ← rd sorted i
      throwIf (decide (v ≤ u))
  else .ok ()

/-- The loop over the vector in `checkRT`, Receiver 718-763: `iter` is what is left of the sorted points, `leaf` the variable
`leafIdx`, `failed` the flag. -/
def checkLeaves (w : Bool) (delta : Block) : List (Block × Block) → Nat → List Nat → Nat → Bool → Res Bool
  | [], _, _, _, failed => .ok failed
  | (a, b) :: t, j, iter, leaf, failed => do
    let ci := a.setWidth 8 &&& 3
    let act ← F4.mul w (delta &&& maskTwo) ci
    let act := act ^^^ (b &&& maskTwo)
    throwIf (decide (j ≠ leaf) && ci != 0)
    let failed := failed || (a &&& maskTwo) != act
    if j = leaf then
      let iter := iter.tail
      checkLeaves w delta t (j + 1) iter (iter.headD leaf) failed
    else checkLeaves w delta t (j + 1) iter leaf failed

/-- `checkRT` of both parties (Sender 520-531, Receiver 630-772); printing is left out. `std::sort` is replaced by a merge sort, of which only
the sorted values are used. Without points the first of them is read out of bounds. -/
def checkRT (w : Bool) (delta : Block) (r : Receiver) (A B baseB : List Block) : Res Unit := do
  if baseB.length ≠ r.baseA.length ∨ B.length ≠ A.length then .error .ub
  else do
    let sorted := r.points.mergeSort
    let _ ← mapRes (checkBase w delta r A baseB sorted) (List.range r.baseA.length)
    let leaf ← rd sorted 0
    let failed ← checkLeaves w delta (A.zip B) 0 sorted leaf false
    throwIf failed

/-- One turn of the check after the encoding, Sender 477-511. -/
def checkFinalAt (w : Bool) (delta : Block) (ab : Block × Block) : Res Unit := do
  let ci := ab.1.setWidth 8 &&& 3
  let e ← F4.mul w (delta &&& maskTwo) ci
  let bi := F4.fromBlockF ab.2 &&& maskTwo
  let ai := F4.fromBlockF ab.1 &&& maskTwo
  throwIf (ai != (e ^^^ bi))

/-- The check after the encoding, Sender 465-513: the receiver sends its vector, which must have the length of the sender's. -/
def checkFinal (w : Bool) (delta : Block) (A B : List Block) : Res Unit := do
  throwIf (A.length != B.length)
  let _ ← mapRes (checkFinalAt w delta) (A.zip B)
  .ok ()

/-- The check of the base VOLE in the debug mode of a batch, F4BitOtBatch.cpp 348-366; `std::terminate` is the outcome `throw`. The
receiver makes room for `baseVoleCount` blocks. -/
def checkBatchBase (w : Bool) (delta : Block) (r : Receiver) (baseB : List Block) : Res Unit := do
  throwIf (baseB.length != r.baseVoleCount)
  let _ ← mapRes (fun i => do
    let ci ← rd r.baseC i
    let ai ← rd r.baseA i
    let bi ← rd baseB i
    let e ← F4.mul w (delta &&& maskTwo) ci
    throwIf ((ai &&& maskTwo) != (e ^^^ (bi &&& maskTwo)))) (List.range baseB.length)
  .ok ()

end F4Vole
end SecJoin
