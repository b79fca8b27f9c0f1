import Verif.AggTree.Share
import Verif.Checks.Util
/-! Instances of C27, C29 and C72 with mapped columns and the circuits evaluated by GMW. -/
namespace SecJoin.Checks.Share
open SecJoin SecJoin.Agg
open SecJoin.Gmw.Wires (Env Cir Mem Col mapCall leafCall)

def blk (s : Nat) : Gmw.Block := BitVec.ofNat 128 (rnd s (2 ^ 64) + 2 ^ 64 * rnd (s + 7777) (2 ^ 64))
def oles (s n : Nat) (c : Cir) : List (List Gmw.Block × List Gmw.Block) × List (List Gmw.Block × List Gmw.Block) :=
  let m := Gmw.numOles n c.levels / 128
  let a := (List.range m).map fun i => blk (s + 4 * i)
  let b := (List.range m).map fun i => blk (s + 4 * i + 1)
  let x := (List.range m).map fun i => blk (s + 4 * i + 2)
  let y := (List.range m).map fun i => (blk (s + 4 * i) &&& blk (s + 4 * i + 1)) ^^^ blk (s + 4 * i + 2)
  ([(a, x)], [(b, y)])
def env (s n : Nat) (c : Cir) : Env := ⟨fun i j => blk (s + i * 31 + j), fun i j => blk (s + 99 + i * 31 + j), fun i j => rnd (s + i * 5 + j) 2 == 1, fun i j => rnd (s + i * 3 + j) 2 == 0, (oles s n c).1, (oles s n c).2⟩
def mem (s : Nat) : Mem := ⟨fun i => 1 + (s + i) % 2, fun i => 1 + (s + i + 1) % 2, fun i j r => rnd (s + i * 77 + j * 13 + r) 2 == 1, fun i j => blk (s + i * 17 + j)⟩

def wd := 3
def wire (r : Reg) (j : Nat) : Nat := r.ctorIdx * wd + j
def each (f : Nat → List Gmw.Gate) : List Gmw.Gate := (List.range wd).flatMap f
/-- The operator: the lowest bit of the first, the other bits ORed. -/
def op (a b : BitVec wd) : BitVec wd := (a &&& 1) ||| ((a ||| b) &&& 6)
def gates : Instr → List Gmw.Gate
  | .op a b d => each fun j => [if j == 0 then ⟨wire a j, wire a j, wire d j, .a⟩ else ⟨wire a j, wire b j, wire d j, .or⟩]
  | .mux t e c d x => each fun j => [⟨wire t j, wire e j, wire x j, .xor⟩, ⟨wire x j, wire c 0, wire x j, .and⟩, ⟨wire e j, wire x j, wire d j, .xor⟩]
  | .andBit a b d => [⟨wire a 0, wire b 0, wire d 0, .and⟩]
  | .xor a b d => each fun j => [⟨wire a j, wire b j, wire d j, .xor⟩]
  | .andChoice a c d => each fun j => [⟨wire a j, wire c 0, wire d j, .and⟩]
  | .copy a d => each fun j => [⟨wire a j, wire a j, wire d j, .a⟩]
def port : Port → List Nat
  | .v r => List.range' (wire r 0) wd
  | .b r => [wire r 0]
def cir (k : Circ) : Cir := ⟨40 * wd, k.ins.map port, k.outs.map port, (k.steps.flatMap gates).map fun g => [g]⟩
def tree (s n : Nat) (t : AggType) : TreeEnv :=
  let p := match computeTreeSizes n with | .ok p => p | .error _ => ⟨0, 0, 0, true, []⟩
  let m := fun j => p.sizes.getD j 0 / 2
  ⟨cir (upstreamCir t), cir (downstreamCir t), cir (leafCircuit t), fun j => env (s + j) (m j) (cir (upstreamCir t)), fun j => mem (s + j), fun j => mem (s + j + 5),
    fun j => env (s + j + 50) (m j) (cir (downstreamCir t)), fun j => mem (s + j + 2), fun j => mem (s + j + 1), env (s + 70) (p.n16 / 2) (cir (leafCircuit t)), mem s, mem (s + 1)⟩
def vals (s n : Nat) : List (BitVec wd) := (List.range n).map fun i => BitVec.ofNat wd (rnd (s * 131 + i) 8)
def bits (s n : Nat) : List Bool := (List.range n).map fun i => i != 0 && rnd (s * 1000 + i) 4 != 0
def start (c : List Bool) (i : Nat) : Nat := ((List.range (i + 1)).filter fun k => k == 0 || c.getD k false == false).getLast?.getD 0
def stop (c : List Bool) (i : Nat) : Nat := (((List.range c.length).filter fun k => decide (i < k) && c.getD k false == false).head?.getD c.length) - 1
def fold (xs : List (BitVec wd)) (s e : Nat) : BitVec wd := match (xs.drop s).take (e + 1 - s) with | [] => 0 | x :: l => l.foldl op x
def spec (t : AggType) (xs : List (BitVec wd)) (c : List Bool) := (List.range xs.length).map fun i => match t with
  | .pre => fold xs (start c i) i | .suf => fold xs i (stop c i) | .full => fold xs (start c i) (stop c i)
def run (s n : Nat) (t : AggType) (q : List (BitVec wd) → List (BitVec wd) → Bool) : Bool :=
  let x := vals s n; let c := bits s n; let y := vals (s + 1) n; let d := (bits (s + 9) n).map fun b => !b
  okAnd (aggTreeGmw (tree s n t) wd t (List.zipWith (· ^^^ ·) x y) y (List.zipWith (· ^^ ·) c d) d) fun (o0, o1) =>
    o0.length == n && o1.length == n && q (List.zipWith (· ^^^ ·) o0 o1) (spec t x c)

#eval say "C27_gmw" <| [AggType.pre, .suf, .full].all fun t => [2, 3, 5, 9, 20].all fun n => run n n t (· == ·)
#eval say "C27_gmw_odd" <| [AggType.pre, .suf, .full].all fun t => [33, 45].all fun n => run n n t (· == ·)
#eval say "C27_rows" <| isThrow (aggTreeGmw (tree 1 4 .pre) wd .pre (vals 1 4) (vals 2 4) (bits 1 3) (bits 2 4)) && isThrow (aggTreeGmw (tree 1 4 .pre) wd .pre (vals 1 4) (vals 2 4) (bits 1 4) (bits 2 3))

def demo : Cir := ⟨6, [[0, 1], [2]], [[3, 4]], [[⟨0, 2, 3, .and⟩], [⟨1, 2, 4, .nor⟩]]⟩
def col (s b n : Nat) : Col := ⟨b, (List.range n).map fun r j => rnd (s * 71 + r * 5 + j) 2 == 1⟩
def get (l : List Col) (i r j : Nat) : Bool := ((l.getD i ⟨0, []⟩).rows.getD r fun _ => false) j
def demoOk (n : Nat) (i0 i1 : List Col) (o : List Col × List Col) : Bool :=
  let x := fun i r j => get i0 i r j ^^ get i1 i r j
  o.1.length == 1 && o.2.length == 1 && (List.range n).all fun r => (get o.1 0 r 0 ^^ get o.2 0 r 0) == (x 0 r 0 && x 1 r 0) && (get o.1 0 r 1 ^^ get o.2 0 r 1) == !(x 0 r 1 || x 1 r 0)
def demoIn (s n : Nat) : List Col := [col s 2 n, col (s + 3) 1 n]
#eval say "C72_map" <| [1, 5, 128].all fun n => [1, 2].all fun s => okAnd (mapCall (env s n demo) (mem s) (mem (s + 1)) n demo [2] (demoIn s n) (demoIn (s + 9) n)) (demoOk n (demoIn s n) (demoIn (s + 9) n))
#eval say "C72_map_copy" <| [1, 5, 128].all fun n => [1, 2].all fun s => okAnd (leafCall (env s n demo) (mem s) (mem (s + 1)) n demo [2] (demoIn s n) (demoIn (s + 9) n)) (demoOk n (demoIn s n) (demoIn (s + 9) n))
#eval say "C72_map_wide" <| let M : Mem := ⟨fun i => 2 + i, fun _ => 3, fun i j r => rnd (i * 77 + j * 13 + r) 2 == 1, fun i j => blk (i * 17 + j)⟩
  okAnd (mapCall (env 3 200 demo) M (mem 1) 200 demo [2] (demoIn 1 200) (demoIn 10 200)) (fun _ => false) == false && okAnd (mapCall (env 3 200 demo) M M 200 demo [2] (demoIn 1 200) (demoIn 10 200)) (demoOk 200 (demoIn 1 200) (demoIn 10 200))
end SecJoin.Checks.Share
