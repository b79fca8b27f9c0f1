import Verif.Basic
/-!
# Model of the GMW protocol: GMW/Gmw.{h,cpp}

Each wire holds `W = mN128` blocks, one bit for each of the parallel instances. Wires do not share
memory (the code lets a caller map two wires to the same buffer; that is not modelled). The debug
branches (`mO.mDebug`) only check and print and are left out. `BetaCircuit` and its levelling
(`levelByAndDepth`) belong to a library outside of the repository: a circuit is given as its list of
levels, each a list of gates.
-/
namespace SecJoin
namespace Gmw

abbrev Block := BitVec 128
abbrev Word := List Block

/-- `oc::GateType`: the sixteen functions of two bits. -/
inductive GateType
  | zero | nor | naAnd | na | nbAnd | nb | xor | nand | and | nxor | a | nbOr | b | naOr | or | one
deriving DecidableEq, Repr

/-- `oc::BetaGate`. -/
structure Gate where
  in0 : Nat
  in1 : Nat
  out : Nat
  type : GateType
deriving DecidableEq, Repr

/-- The branches of `run`, Gmw.cpp 378-445: copy, multiplication, XOR, its complement; all other types
are refused. -/
inductive Kind
  | copy | mult | xor | nxor | bad
deriving DecidableEq, Repr

def kind : GateType → Kind
  | .a => .copy
  | .naAnd | .nbAnd | .and | .nand | .nor | .nbOr | .or => .mult
  | .xor => .xor
  | .nxor => .nxor
  | _ => .bad

def xorW (x y : Word) : Word := List.zipWith (· ^^^ ·) x y
def andW (x y : Word) : Word := List.zipWith (· &&& ·) x y
/-- XOR with `oc::AllOneBlock`. -/
def notW (x : Word) : Word := x.map (· ^^^ BitVec.allOnes 128)

/-- `invertA`, Gmw.cpp 621-642. -/
def invertA : GateType → Res Bool
  | .naAnd | .or | .nor | .nbOr => .ok true
  | .and | .nand | .nbAnd => .ok false
  | _ => .error .throw

/-- `invertB`, Gmw.cpp 643-664. -/
def invertB : GateType → Res Bool
  | .nbAnd | .nor | .or => .ok true
  | .naAnd | .and | .nand | .nbOr => .ok false
  | _ => .error .throw

/-- `invertC`, Gmw.cpp 665-686. -/
def invertC : GateType → Res Bool
  | .or | .nand | .nbOr => .ok true
  | .naAnd | .nbAnd | .nor | .and => .ok false
  | _ => .error .throw

/-- `multSendP1(x, gt, a, u)`, Gmw.cpp 705-720: what is written to `u`. -/
def sendP1 (gt : GateType) (x a : Word) : Res Word := do
  let i ← invertA gt
  .ok (if i = false then xorW a x else notW (xorW a x))

/-- `multSendP2(y, gt, c, w)`, Gmw.cpp 722-741. -/
def sendP2 (gt : GateType) (y c : Word) : Res Word := do
  let i ← invertB gt
  .ok (if i = false then xorW c y else xorW c (notW y))

/-- `multRecvP1(x, z, gt, b, w)`, Gmw.cpp 743-763. -/
def recvP1 (gt : GateType) (x b w : Word) : Res Word := do
  let i ← invertA gt
  .ok (if i = false then xorW (andW x w) b else xorW (andW (notW x) w) b)

/-- `multRecvP2(y, z, c, d, u)`, Gmw.cpp 765-781. -/
def recvP2 (c d u : Word) : Word := xorW (andW c u) d

/-- `multSend`, Gmw.h 229-239 with Gmw.cpp 783-801. -/
def multSend (role : Nat) (gt : GateType) (x y a c : Word) : Res (List Block) :=
  if role = 0 then do
    let u ← sendP1 gt x a
    let w ← sendP2 gt y c
    .ok (u ++ w)
  else do
    let w ← sendP2 .and y c
    let u ← sendP1 .and x a
    .ok (w ++ u)

/-- `multRecv`, Gmw.h 253-265 with Gmw.cpp 804-856; `m0`, `m1` are the next two words of the
received buffer. -/
def multRecv (role : Nat) (gt : GateType) (x y b c d m0 m1 : Word) : Res Word :=
  if role = 0 then do
    let zz ← recvP1 gt x b m0
    let zz2 := recvP2 c d m1
    let xi ← invertA gt
    let yi ← invertB gt
    let zi ← invertC gt
    let xx := if xi then notW x else x
    let yy := if yi then notW y else y
    let z := xorW (xorW (andW xx yy) zz) zz2
    .ok (if zi then notW z else z)
  else do
    let zz := recvP2 c d m0
    let zz2 ← recvP1 .and x b m1
    .ok (xorW (xorW zz2 zz) (andW x y))

/-- The first `n` entries of a buffer and the rest; running past the end is undefined behaviour. -/
def cut (n : Nat) (l : List α) : Res (List α × List α) :=
  if n ≤ l.length then .ok (l.take n, l.drop n) else .error .ub

/-- First loop over the gates of a level, Gmw.cpp 353-446: linear gates are evaluated, for the others
the message is written. `a`, `c` are the triples from position `j` on. The result is the wires and
the sent blocks; how the code splits them into messages is `chunks` below. -/
def phase1 (role W : Nat) : List Gate → List Block → List Block → List Word → Res (List Word × List Block)
  | [], _, _, w => .ok (w, [])
  | g :: gs, a, c, w => do
    let x ← rd w g.in0
    let y ← rd w g.in1
    match kind g.type with
    | .copy => do
      let w ← wr w g.out x
      phase1 role W gs a c w
    | .mult => do
      let _ ← rd w g.out
      let (a0, a) ← cut W a
      let (c0, c) ← cut W c
      let m ← multSend role g.type x y a0 c0
      let (w, ms) ← phase1 role W gs a c w
      .ok (w, m ++ ms)
    | .xor => do
      let w ← wr w g.out (xorW x y)
      phase1 role W gs a c w
    | .nxor => do
      let w ← wr w g.out (if role ≠ 0 then notW (xorW x y) else xorW x y)
      phase1 role W gs a c w
    | .bad => .error .throw

/-- Second loop over the gates of a level, Gmw.cpp 451-490; `m` are the received blocks that are not
yet used. -/
def phase2 (role W : Nat) :
    List Gate → List Block → List Block → List Block → List Block → List Word → Res (List Word)
  | [], _, _, _, _, w => .ok w
  | g :: gs, b, c, d, m, w =>
    match kind g.type with
    | .mult => do
      let (m0, m) ← cut W m
      let (m1, m) ← cut W m
      let x ← rd w g.in0
      let y ← rd w g.in1
      let (b0, b) ← cut W b
      let (c0, c) ← cut W c
      let (d0, d) ← cut W d
      let z ← multRecv role g.type x y b0 c0 d0 m0 m1
      let w ← wr w g.out z
      phase2 role W gs b c d m w
    | _ => phase2 role W gs b c d m w

/-- The sizes of the messages of one level, Gmw.cpp 393-399 and 464-470: both loops take
`roundUpTo(min(2^14, roundRem), 2 * mN128)` blocks until `roundRem` is used up. `fuel` bounds the
number of messages. -/
def chunks (W : Nat) : Nat → Nat → List Nat
  | 0, _ => []
  | fuel + 1, rem =>
    if rem = 0 then []
    else
      let c := divCeil (Nat.min (2 ^ 14) rem) (W * 2) * (W * 2)
      c :: chunks W fuel (rem - c)

/-! ## OLE correlations -/

/-- The OLEs of one party: the rest of the current segment (`mult`, `add`) and the segments that
`mTriples.get` will deliver. -/
structure Pool where
  mult : List Block
  add : List Block
  segs : List (List Block × List Block)
deriving DecidableEq

/-- The triples of one level. -/
structure Triples where
  a : List Block
  b : List Block
  c : List Block
  d : List Block

/-- Fetching the next segment when the current one is used up, Gmw.cpp 288-294. `get` throws if nothing
is left (Request.h 68-81). -/
def refill (p : Pool) : Res Pool :=
  if p.add.length = 0 then
    match p.segs with
    | [] => .error .throw
    | s :: ss => .ok ⟨s.1, s.2, ss⟩
  else .ok p

/-- The fetch loop, Gmw.cpp 284-339: `need = a.size() - j`. If the current segment is a
single block nothing changes any more, the loop does not end. `fuel` bounds the number of iterations. -/
def fetch (role : Nat) : Nat → Nat → Pool → Res (Triples × Pool)
  | _, 0, p => .ok (⟨[], [], [], []⟩, p)
  | 0, _ + 1, _ => .error .diverge
  | fuel + 1, need + 1, p => do
    let p ← refill p
    let min := Nat.min (need + 1) (p.add.length / 2)
    if min = 0 ∧ p.add.length ≠ 0 then .error .diverge
    else do
      let (m0, mult) ← cut min p.mult
      let (m1, mult) ← cut min mult
      let (a0, add) ← cut min p.add
      let (a1, add) ← cut min add
      let (t, p) ← fetch role fuel (need + 1 - min) ⟨mult, add, p.segs⟩
      if role ≠ 0 then .ok (⟨m0 ++ t.a, a0 ++ t.b, m1 ++ t.c, a1 ++ t.d⟩, p)
      else .ok (⟨m1 ++ t.a, a1 ++ t.b, m0 ++ t.c, a0 ++ t.d⟩, p)

/-- The number of nonlinear gates, `mLevelAndCounts` and `mNonlinearGateCount`. -/
def ands (gs : List Gate) : Nat := (gs.filter fun g => kind g.type == .mult).length

/-- One iteration of the loop over the levels, run by both parties, Gmw.cpp 257-493. The blocks sent by
one party are received by the other. -/
def runLevel (W : Nat) (gs : List Gate) (p0 p1 : Pool) (w0 w1 : List Word) :
    Res (Pool × Pool × List Word × List Word) := do
  let need := W * ands gs
  let (t0, p0) ← fetch 0 (need + p0.segs.length) need p0
  let (t1, p1) ← fetch 1 (need + p1.segs.length) need p1
  let (w0, m0) ← phase1 0 W gs t0.a t0.c w0
  let (w1, m1) ← phase1 1 W gs t1.a t1.c w1
  let w0 ← phase2 0 W gs t0.b t0.c t0.d m1 w0
  let w1 ← phase2 1 W gs t1.b t1.c t1.d m0 w1
  .ok (p0, p1, w0, w1)

/-- The loop over the levels, Gmw.cpp 257-598. -/
def runLevels (W : Nat) : List (List Gate) → Pool → Pool → List Word → List Word →
    Res (Pool × Pool × List Word × List Word)
  | [], p0, p1, w0, w1 => .ok (p0, p1, w0, w1)
  | gs :: ls, p0, p1, w0, w1 => do
    let (p0, p1, w0, w1) ← runLevel W gs p0 p1 w0 w1
    runLevels W ls p0 p1 w0 w1

/-- `mN128`, Gmw.cpp 22. -/
def width (n : Nat) : Nat := divCeil n 128

/-- The number of OLEs requested by `init`, Gmw.cpp 37-38. -/
def numOles (n : Nat) (levels : List (List Gate)) : Nat :=
  2 * (levels.map ands).sum * (divCeil n 128 * 128)

/-- `Gmw::run` of both parties, Gmw.cpp 207-600, starting with the given segments of OLEs. An empty
circuit is refused. -/
def run (n : Nat) (levels : List (List Gate)) (segs0 segs1 : List (List Block × List Block))
    (w0 w1 : List Word) : Res (Pool × Pool × List Word × List Word) := do
  throwIf (levels.flatten.length == 0)
  runLevels (width n) levels ⟨[], [], segs0⟩ ⟨[], [], segs1⟩ w0 w1

end Gmw
end SecJoin
