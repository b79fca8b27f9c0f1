import Verif.Prf.Mod3
/-!
# The subprotocols of the alternating moduli PRF

Model of `/repo/secure-join/Prf/ConvertToF3.cpp`, `/repo/secure-join/Prf/AltModKeyMult.cpp` and of `mod2Ole`, `mod2OtF4` in
`/repo/secure-join/Prf/AltModPrfProto.cpp`. Correlations come in pieces (see C39, C40), given as a list of lists with one
record per block. Messages are lists; a protocol run is the composition of the parties' steps. Digits are pairs (high, low).
Tracing and debug checks are left out.
-/
namespace SecJoin
namespace AltMod

open Mod3

/-! ## From bits to digits -/

/-- One block of `TritOtSend`: two messages of 128 digits. -/
structure TritS where
  l0 : Block
  m0 : Block
  l1 : Block
  m1 : Block

/-- One block of `TritOtRecv`. -/
structure TritR where
  c : Block
  l : Block
  m : Block

/-- First loop of the receiver, ConvertToF3.cpp 66-106: a message with `c ^ x` for each piece. `get` throws after the last
piece (Request.h 70-71). -/
def cvRecv1 : List Block → List (List TritR) → Res (List (List Block))
  | xs, segs =>
    if xs.length = 0 then .ok []
    else match segs with
      | [] => .error .throw
      | s :: ss => do
        let k := min xs.length s.length
        let r ← cvRecv1 (xs.drop k) ss
        .ok (List.zipWith (fun t x => t.c ^^^ x) (s.take k) (xs.take k) :: r)

/-- The body of the sender's loop, ConvertToF3.cpp 245-266: `delta` and the output, given the input bits, the correction and the
messages. -/
def cvSendElt (x cr : Block) (t : TritS) : (Block × Block) × (Block × Block) :=
  let tLsb := t.l0 ^^^ t.l1
  let tMsb := t.m0 ^^^ t.m1
  let s0Lsb := (cr &&& tLsb) ^^^ t.l0
  let s0Msb := (cr &&& tMsb) ^^^ t.m0
  let s1Lsb := s0Lsb ^^^ tLsb
  let s1Msb := s0Msb ^^^ tMsb
  let d := sub s0Msb s0Lsb s1Msb s1Lsb
  let d := add d.1 d.2 x (~~~x)
  (d, addBit s0Lsb s0Msb x)

/-- The sender's loop, ConvertToF3.cpp 202-297, with the received corrections: the messages and the output. -/
def cvSend : List Block → List (List TritS) → List (List Block) → Res (List (List (Block × Block)) × List (Block × Block))
  | xs, segs, msgs =>
    if xs.length = 0 then .ok ([], [])
    else match segs, msgs with
      | [], _ => .error .throw
      | _ :: _, [] => .error .diverge
      | s :: ss, c :: cs => do
        let k := min xs.length s.length
        throwIf (c.length != k)
        let o := List.zipWith (fun (xc : Block × Block) t => cvSendElt xc.1 xc.2 t) ((xs.take k).zip c) (s.take k)
        let (ds, ys) ← cvSend (xs.drop k) ss cs
        .ok (o.map (·.1) :: ds, o.map (·.2) ++ ys)

/-- The body of the receiver's second loop, ConvertToF3.cpp 141-148. -/
def cvRecvElt (x : Block) (d : Block × Block) (t : TritR) : Block × Block :=
  add (d.1 &&& x) (d.2 &&& x) t.m t.l

/-- Second loop of the receiver, ConvertToF3.cpp 108-165. -/
def cvRecv2 : List Block → List (List TritR) → List (List (Block × Block)) → Res (List (Block × Block))
  | xs, segs, msgs =>
    if xs.length = 0 then .ok []
    else match segs, msgs with
      | [], _ => .error .throw
      | _ :: _, [] => .error .diverge
      | s :: ss, d :: ds => do
        let k := min xs.length s.length
        throwIf (d.length != k)
        let o := List.zipWith (fun (xd : Block × (Block × Block)) t => cvRecvElt xd.1 xd.2 t) ((xs.take k).zip d) (s.take k)
        let ys ← cvRecv2 (xs.drop k) ss ds
        .ok (o ++ ys)

/-- `request.size()`: the number of bits in all pieces. -/
def reqBits {α : Type} (segs : List (List α)) : Nat := 128 * (segs.map List.length).sum

/-- The checks of the sender, ConvertToF3.cpp 172-192. `n1`, `n0` are the sizes of the output spans. -/
def cvSendCheck (xs : List Block) (n1 n0 : Nat) (segs : List (List TritS)) : Res Unit := do
  throwIf (n1 != xs.length)
  throwIf (n0 != xs.length)
  throwIf (decide (reqBits segs < xs.length))
  throwIf (decide (reqBits segs < xs.length * 128))

/-- The checks of the receiver before the `try`, ConvertToF3.cpp 15-20. -/
def cvRecvCheck (xs : List Block) (n1 n0 : Nat) (segs : List (List TritR)) : Res Unit := do
  throwIf (n1 != xs.length)
  throwIf (n0 != xs.length)
  throwIf (decide (reqBits segs < xs.length))

/-- Both parties' `convert`: sender `x0`, receiver `x1`; the outputs are `(y1, y0)` block by block. -/
def convert (x0 x1 : List Block) (sendSegs : List (List TritS)) (recvSegs : List (List TritR)) :
    Res (List (Block × Block) × List (Block × Block)) := do
  cvSendCheck x0 x0.length x0.length sendSegs
  cvRecvCheck x1 x1.length x1.length recvSegs
  throwIf (reqBits recvSegs != x1.length * 128)
  let cor ← cvRecv1 x1 recvSegs
  let (ds, y0) ← cvSend x0 sendSegs cor
  let y1 ← cvRecv2 x1 recvSegs ds
  .ok (y0, y1)

/-- What the receiver's caller sees, ConvertToF3.cpp 23-165: exceptions inside the `try` end in the handler, which closes the
socket and returns. `y` is what the output spans held before, `body` the part in the `try` after the size check. -/
def cvRecvReturns (x : List Block) (segs : List (List TritR)) (y : List (Block × Block)) (body : Res (List (Block × Block))) :
    Res (List (Block × Block)) := do
  cvRecvCheck x y.length y.length segs
  let r := do
    throwIf (reqBits segs != x.length * 128)
    body
  match r with
  | .error .throw => .ok y
  | r => r

/-! ## Key multiplication -/

/-- A generator `PRNG` with its counter. -/
structure Gen where
  key : Block
  idx : Nat

/-- The pseudorandom functions: `S` is what `sampleMod3Lookup` draws (C48), `str` is the counter mode. Both are arbitrary. -/
structure Prg where
  sample : Gen → Nat → List (Block × Block) × Gen
  str : Block → Nat → Block

/-- `xorVector(v, prng)`, AltModSimd.h 32-64, and `xorVectorOne(v, u, prng)`, 69-105. The unrolled part takes the same counters. -/
def Prg.xorVec (G : Prg) (v : List Block) (g : Gen) : List Block × Gen :=
  (List.zipWith (fun x j => x ^^^ G.str g.key (g.idx + j)) v (List.range v.length), { g with idx := g.idx + v.length })

/-- The addition of digits with or without a high part of `x`. -/
def addX (s : Block × Block) : Option Block × Block → Block × Block
  | (some x1, x0) => add s.1 s.2 x1 x0
  | (none, x0) => addBit s.1 s.2 x0

/-- The subtraction of digits with or without a high part of `x`. -/
def subX (s : Block × Block) : Option Block × Block → Block × Block
  | (some x1, x0) => sub s.1 s.2 x1 x0
  | (none, x0) => subBit s.1 s.2 x0

/-- The addition in place. -/
def incX (s : Block × Block) : Option Block × Block → Block × Block
  | (some x1, x0) => add s.1 s.2 x1 x0
  | (none, x0) => incBit s.1 s.2 x0

/-- One row of the sender, AltModKeyMult.cpp 219-293: key share bit `k`, the two generators, the row of `x`. The message is
the row of `msg`, high part first; the output is the row of `(xk1, xk0)`. The share is stored swapped. -/
def kmSendRow (G : Prg) (k : Bool) (g0 g1 : Gen) (x : List (Option Block × Block)) :
    (List Block × List Block) × List (Block × Block) × Gen × Gen :=
  let (s, g0) := G.sample g0 x.length
  let neg := s.map fun a => (a.2, a.1)
  let m := if k then List.zipWith subX s x else List.zipWith addX s x
  let out := if k then List.zipWith incX neg x else neg
  let (hi, g1) := G.xorVec (m.map (·.1)) g1
  let (lo, g1) := G.xorVec (m.map (·.2)) g1
  ((hi, lo), out, g0, g1)

/-- One row of the receiver, AltModKeyMult.cpp 60-86, for a row of `n` blocks: the message is not used if the key bit is 0. -/
def kmRecvRow (G : Prg) (k : Bool) (g : Gen) (n : Nat) (msg : List Block × List Block) : Res (List (Block × Block) × Gen) := do
  throwIf (msg.1.length + msg.2.length != 2 * n)
  if k then
    let (hi, g) := G.xorVec msg.1 g
    let (lo, g) := G.xorVec msg.2 g
    .ok (List.zip hi lo, g)
  else .ok (G.sample g n)

/-- All rows: the key has one bit per row. The messages go out in groups of 32 rows, which does not matter here. -/
def keyMult (G : Prg) (n : Nat) : List Bool → List (Gen × Gen) → List (List (Option Block × Block)) → List Bool → List Gen →
    Res (List (List (Block × Block)) × List (Gen × Gen) × List (List (Block × Block)) × List Gen)
  | k0 :: ks0, (g0, g1) :: gs, x :: xs, k1 :: ks1, h :: hs => do
    let (msg, out, g0, g1) := kmSendRow G k0 g0 g1 x
    let (o, h) ← kmRecvRow G k1 h n msg
    let (a, b, c, d) ← keyMult G n ks0 gs xs ks1 hs
    .ok (out :: a, (g0, g1) :: b, o :: c, h :: d)
  | [], [], [], [], [] => .ok ([], [], [], [])
  | _, _, _, _, _ => .error .throw

/-! ## From digits to bits with binary OLE -/

/-- One block of `BinOle`. -/
structure Ole where
  mult : Block
  add : Block

/-- Two consecutive blocks. -/
def pairs {α : Type} : List α → List (α × α)
  | a :: b :: r => (a, b) :: pairs r
  | _ => []

/-- First loop of the receiver of `mod2Ole`, AltModPrfProto.cpp 721-764: for each piece the masked digits. When one block of a
piece is left and there are more digits, `step` is zero and the loop does not end. -/
def oleRecv1 : List (Block × Block) → List (List Ole) → Res (List (List (Block × Block)))
  | us, segs =>
    if us.length = 0 then .ok []
    else match segs with
      | [] => .error .throw
      | s :: ss => do
        let k := min us.length (s.length / 2)
        if s.length % 2 = 1 ∧ k < us.length then .error .diverge
        else do
          let r ← oleRecv1 (us.drop k) ss
          .ok (List.zipWith (fun u (y : Ole × Ole) => (u.2 ^^^ y.1.mult, u.1 ^^^ y.2.mult)) (us.take k) ((pairs s).take k) :: r)

/-- The body of the sender's loop, AltModPrfProto.cpp 610-661: reply and output. -/
def oleSendElt (v : Block × Block) (o : Ole × Ole) (d : Block × Block) : (Block × Block) × Block :=
  let x0 := o.1.add ^^^ (o.1.mult &&& d.1)
  let x1 := o.2.add ^^^ (o.2.mult &&& d.2)
  let m0 := x0 ^^^ x1
  let m1 := m0 ^^^ o.1.mult
  let m2 := m0 ^^^ o.2.mult
  let t0 := m0 ^^^ v.2
  let t1 := t0 ^^^ m1 ^^^ v.2 ^^^ v.1 ^^^ BitVec.allOnes 128
  let t2 := t0 ^^^ m2 ^^^ v.1
  ((t1, t2), t0)

/-- The sender's loop, AltModPrfProto.cpp 587-670. A reply is only sent when a piece was used up. -/
def oleSend : List (Block × Block) → List (List Ole) → List (List (Block × Block)) → Res (List (List (Block × Block)) × List Block)
  | vs, segs, msgs =>
    if vs.length = 0 then .ok ([], [])
    else match segs, msgs with
      | [], _ => .error .throw
      | _ :: _, [] => .error .diverge
      | s :: ss, d :: ds => do
        let k := min vs.length (s.length / 2)
        if s.length % 2 = 1 ∧ k < vs.length then .error .diverge
        else do
          throwIf (decide (d.length < k))
          let o := List.zipWith (fun (vo : (Block × Block) × (Ole × Ole)) d => oleSendElt vo.1 vo.2 d) ((vs.take k).zip ((pairs s).take k)) (d.take k)
          let (r, ys) ← oleSend (vs.drop k) ss ds
          .ok ((if 2 * k = s.length then [o.map (·.1)] else []) ++ r, o.map (·.2) ++ ys)

/-- The body of the receiver's second loop, AltModPrfProto.cpp 800-803. -/
def oleRecvElt (u : Block × Block) (o : Ole × Ole) (t : Block × Block) : Block :=
  (u.2 &&& t.1) ^^^ (u.1 &&& t.2) ^^^ o.1.add ^^^ o.2.add

/-- Second loop of the receiver, AltModPrfProto.cpp 776-819. It waits for a reply for each piece. -/
def oleRecv2 : List (Block × Block) → List (List Ole) → List (List (Block × Block)) → Res (List Block)
  | us, segs, msgs =>
    if us.length = 0 then .ok []
    else match segs, msgs with
      | [], _ => .error .ub
      | _ :: _, [] => .error .diverge
      | s :: ss, t :: ts => do
        let k := min us.length (s.length / 2)
        if s.length % 2 = 1 ∧ k < us.length then .error .diverge
        else do
          let o := List.zipWith (fun (uo : (Block × Block) × (Ole × Ole)) t => oleRecvElt uo.1 uo.2 t) ((us.take k).zip ((pairs s).take k)) t
          let r ← oleRecv2 (us.drop k) ss ts
          .ok (o ++ r)

/-- `mod2Ole` of both parties, AltModPrfProto.cpp 565-820: the sender's digits are `v`, the receiver's `u`. The matrices are
walked row by row in memory order, and a row end only splits `step`. -/
def mod2Ole (v u : List (Block × Block)) (sendSegs recvSegs : List (List Ole)) : Res (List Block × List Block) := do
  let ms ← oleRecv1 u recvSegs
  let (ts, z0) ← oleSend v sendSegs ms
  let z1 ← oleRecv2 u recvSegs ts
  .ok (z0, z1)

/-! ## From digits to bits with four-choice OT -/

/-- One block of `F4BitOtSend`. -/
structure F4S where
  o0 : Block
  o1 : Block
  o2 : Block
  o3 : Block

/-- One block of `F4BitOtRecv`. -/
structure F4R where
  lsb : Block
  msb : Block
  ot : Block

/-- First loop of the receiver of `mod2OtF4`, AltModPrfProto.cpp 1054-1092. -/
def f4Recv1 : List (Block × Block) → List (List F4R) → Res (List (List (Block × Block)))
  | us, segs =>
    if us.length = 0 then .ok []
    else match segs with
      | [] => .error .throw
      | s :: ss => do
        let k := min us.length s.length
        let r ← f4Recv1 (us.drop k) ss
        .ok (List.zipWith (fun u (t : F4R) => (u.2 ^^^ t.lsb, u.1 ^^^ t.msb)) (us.take k) (s.take k) :: r)

/-- `swap(l0, l1, c)`, AltModPrfProto.cpp 938-943. -/
def swapIf (l0 l1 c : Block) : Block × Block :=
  let diff := l0 ^^^ l1
  let l0 := l0 ^^^ (c &&& diff)
  (l0, l0 ^^^ diff)

/-- The body of the sender's loop, AltModPrfProto.cpp 945-1000: reply and output. -/
def f4SendElt (v : Block × Block) (o : F4S) (d : Block × Block) : (Block × Block) × Block :=
  let (o0, o1) := swapIf o.o0 o.o1 d.1
  let (o2, o3) := swapIf o.o2 o.o3 d.1
  let (o0, o2) := swapIf o0 o2 d.2
  let (o1, _) := swapIf o1 o3 d.2
  let tv0 := v.2
  let tv1 := ~~~(v.2 ^^^ v.1)
  let tv2 := v.1
  let out := tv0 ^^^ o0
  ((tv1 ^^^ out ^^^ o1, tv2 ^^^ out ^^^ o2), out)

/-- The sender's loop, AltModPrfProto.cpp 912-1015. -/
def f4Send : List (Block × Block) → List (List F4S) → List (List (Block × Block)) → Res (List (List (Block × Block)) × List Block)
  | vs, segs, msgs =>
    if vs.length = 0 then .ok ([], [])
    else match segs, msgs with
      | [], _ => .error .throw
      | _ :: _, [] => .error .diverge
      | s :: ss, d :: ds => do
        let k := min vs.length s.length
        throwIf (d.length != k)
        let o := List.zipWith (fun (vo : (Block × Block) × F4S) d => f4SendElt vo.1 vo.2 d) ((vs.take k).zip (s.take k)) d
        let (r, ys) ← f4Send (vs.drop k) ss ds
        .ok (o.map (·.1) :: r, o.map (·.2) ++ ys)

/-- The body of the receiver's second loop, AltModPrfProto.cpp 1137-1140. -/
def f4RecvElt (u : Block × Block) (o : F4R) (t : Block × Block) : Block := (u.2 &&& t.1) ^^^ (u.1 &&& t.2) ^^^ o.ot

/-- Second loop of the receiver, AltModPrfProto.cpp 1105-1156. -/
def f4Recv2 : List (Block × Block) → List (List F4R) → List (List (Block × Block)) → Res (List Block)
  | us, segs, msgs =>
    if us.length = 0 then .ok []
    else match segs, msgs with
      | [], _ => .error .ub
      | _ :: _, [] => .error .diverge
      | s :: ss, t :: ts => do
        let k := min us.length s.length
        throwIf (t.length != k)
        let o := List.zipWith (fun (uo : (Block × Block) × F4R) t => f4RecvElt uo.1 uo.2 t) ((us.take k).zip (s.take k)) t
        let r ← f4Recv2 (us.drop k) ss ts
        .ok (o ++ r)

/-- `mod2OtF4` of both parties, AltModPrfProto.cpp 877-1156. -/
def mod2F4 (v u : List (Block × Block)) (sendSegs : List (List F4S)) (recvSegs : List (List F4R)) : Res (List Block × List Block) := do
  let ms ← f4Recv1 u recvSegs
  let (ts, z0) ← f4Send v sendSegs ms
  let z1 ← f4Recv2 u recvSegs ts
  .ok (z0, z1)

end AltMod
end SecJoin
