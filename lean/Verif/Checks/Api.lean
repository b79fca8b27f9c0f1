import Verif.GMW.Api
import Verif.Checks.Util
/-! Instances of C72, evaluated: circuits run through the calls of the API. -/
namespace SecJoin.Checks.Api
open SecJoin.Gmw SecJoin.Gmw.Wires

def types : List (GateType × (Bool → Bool → Bool)) := [(.a, fun a _ => a), (.naAnd, fun a b => !a && b), (.nbAnd, fun a b => a && !b), (.and, fun a b => a && b),
  (.nand, fun a b => !(a && b)), (.nor, fun a b => !(a || b)), (.nbOr, fun a b => a || !b), (.or, fun a b => a || b), (.xor, fun a b => a ^^ b), (.nxor, fun a b => !(a ^^ b))]
def tab (t : GateType) : Bool → Bool → Bool := ((types.find? (·.1 == t)).map (·.2)).getD fun _ _ => false
def blk (s : Nat) : Block := BitVec.ofNat 128 (rnd (2 * s) (2 ^ 64) * 2 ^ 64 + rnd (2 * s + 1) (2 ^ 64))
def junk0 (r k : Nat) : Block := blk (17 * r + k)
def junk1 (r k : Nat) : Block := blk (19 * r + k + 7000)
def pad0 (j r : Nat) : Bool := rnd (j * 1000 + r) 2 == 1
def pad1 (j r : Nat) : Bool := rnd (j * 999 + r + 5) 2 == 1
def word (s W : Nat) : Word := (List.range W).map fun i => blk (s * 100 + i)
def segs (l : List Nat) : List (List Block × List Block) × List (List Block × List Block) :=
  let t := l.zipIdx.map fun (n, k) => (word (11 + 4 * k) n, word (12 + 4 * k) n, word (13 + 4 * k) n)
  (t.map fun (a, b, _) => (a, b), t.map fun (a, b, c) => (c, List.zipWith (· ^^^ ·) (List.zipWith (· &&& ·) a c) b))
def rows (seed n c : Nat) : List (List (BitVec 8)) := (List.range n).map fun i => (List.range c).map fun j => BitVec.ofNat 8 (rnd (seed * 7919 + 10 * i + j) 256)
def setBits (m : List (List (BitVec 8))) (j r : Nat) : Bool := ((m.getD r []).getD (j / 8) 0).getLsbD (j % 8)
def mbit (m : List Block) (stride j r : Nat) : Bool := (m.getD (j * stride + r / 128) 0).getLsbD (r % 128)

-- inputs of 2 and 3 wires, outputs of 2 and 1 wires
def ins : List (List Nat) := [[3, 4], [0, 1, 2]]
def outs : List (List Nat) := [[8, 9], [5]]
def levels : List (List Gate) := [[⟨0, 3, 6, .and⟩, ⟨1, 4, 7, .nbOr⟩, ⟨2, 2, 10, .a⟩], [⟨6, 7, 8, .nxor⟩, ⟨8, 10, 9, .nand⟩], [⟨9, 8, 5, .naAnd⟩, ⟨3, 9, 11, .xor⟩, ⟨11, 6, 8, .nor⟩]]
def plain (gs : List Gate) (v : List Bool) : List Bool := gs.foldl (fun v g => v.set g.out (tab g.type (v.getD g.in0 false) (v.getD g.in1 false))) v

structure Case where
  n : Nat
  ops0 : List Op
  heap0 : Nat → List Block
  next0 : Nat
  sh0 : Nat → Nat → Nat → Bool
  ops1 : List Op
  sh1 : Nat → Nat → Nat → Bool
  cut : List Nat
  map0 : Option TMat := none
def regs (W : Nat) (r : Nat) : List Block := word (600 + r) (W * 2)
def cases : List Case := [
  ⟨130, [.setInput 0 (rows 1 130 1) 1 1, .setInput 1 (rows 2 130 1) 1 1], fun _ => [], 0, fun i => if i = 0 then setBits (rows 1 130 1) else setBits (rows 2 130 1),
    [.setZero 1, .setInput 0 (rows 3 130 4) 4 4], fun i => if i = 0 then setBits (rows 3 130 4) else fun _ _ => false, [4, 2, 14], none⟩,
  ⟨128, [.mapOutput 0 ⟨1, 2, 16, 128⟩, .setZero 1, .mapInput 0 ⟨0, 2, 16, 128⟩], fun r => if r < 2 then regs 1 r else [], 2, fun i => if i = 0 then mbit (regs 1 0) 1 else fun _ _ => false,
    [.setInput 1 (rows 4 128 1) 1 1, .setInput 0 (rows 5 128 1) 1 1], fun i => if i = 0 then setBits (rows 5 128 1) else setBits (rows 4 128 1), [10], some ⟨1, 2, 16, 128⟩⟩,
  ⟨300, [.setInput 0 (rows 6 300 1) 1 1, .mapOutput 0 ⟨1, 2, 80, 300⟩, .setZero 1], fun r => if r < 2 then regs 5 r else [], 2, fun i => if i = 0 then setBits (rows 6 300 1) else fun _ _ => false,
    [.setZero 0, .setZero 1, .setInput 1 (rows 7 300 1) 1 1], fun i => if i = 0 then fun _ _ => false else setBits (rows 7 300 1), [30], some ⟨1, 2, 80, 300⟩⟩]
def go (c : Case) : Res (St × St) := do
  let s0 ← steps junk0 pad0 c.ops0 (init c.n 12 ins outs c.heap0 c.next0)
  let s1 ← steps junk1 pad1 c.ops1 (init c.n 12 ins outs (fun _ => []) 0)
  let (a, b) := segs ((c.cut.take (c.cut.length - 1)) ++ [numOles c.n levels / 128 - ((c.cut.take (c.cut.length - 1))).sum])
  runBoth junk0 junk1 c.n levels a b s0 s1
def expect (c : Case) (i j r : Nat) : Bool :=
  let v0 := (List.range 12).map fun w => match ins.zipIdx.find? (fun (b, _) => b.contains w) with
    | some (b, i) => c.sh0 i (b.idxOf w) r ^^ c.sh1 i (b.idxOf w) r
    | none => false
  (plain levels.flatten v0).getD ((outs.getD i []).getD j 0) false

#eval say "C72_eval" <| cases.all fun c => okAnd (go c) fun (t0, t1) => (List.range 2).all fun i => let b := outs.getD i []
  okAnd (getOutput junk1 t1 i c.n 1 1) fun f1 => (List.range b.length).all fun j =>
    (match c.map0, i with
    | some d, 0 => (List.range c.n).all fun r => (mbit (t0.heap d.reg) (d.cols / 16) j r ^^ f1 r j) == expect c i j r
    | _, _ => okAnd (getOutput junk0 t0 i c.n 1 1) fun f0 => (List.range c.n).all fun r => (f0 r j ^^ f1 r j) == expect c i j r)
#eval say "C72_missing" <| [[Op.setZero 0], [.setZero 1], []].all fun ops => isThrow (do
  let s0 ← steps junk0 pad0 ops (init 5 12 ins outs (fun _ => []) 0)
  let s1 ← steps junk1 pad1 [.setZero 0, .setZero 1] (init 5 12 ins outs (fun _ => []) 0)
  let (a, b) := segs [numOles 5 levels / 128]
  runBoth junk0 junk1 5 levels a b s0 s1)

end SecJoin.Checks.Api
