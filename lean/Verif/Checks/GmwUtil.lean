import Verif.Join.OmGmw
import Verif.TableOps.GroupByGmw
import Verif.Checks.Util
/-! Circuits, correlations and random values for runs with the circuits evaluated by GMW. -/
namespace SecJoin.Checks.GmwUtil
open SecJoin SecJoin.Agg SecJoin.OmJoin
open SecJoin.Gmw.Wires (Env Cir Mem)
open SecJoin.Radix (Ot RoundEnv sumBits nodeWire oneHotOps)

def blk (s : Nat) : Gmw.Block := BitVec.ofNat 128 (rnd s (2 ^ 64) + 2 ^ 64 * rnd (s + 7777) (2 ^ 64))
def oles (s n : Nat) (c : Cir) : List (List Gmw.Block × List Gmw.Block) × List (List Gmw.Block × List Gmw.Block) :=
  let m := Gmw.numOles n c.levels / 128
  let a := (List.range m).map fun i => blk (s + 4 * i)
  let b := (List.range m).map fun i => blk (s + 4 * i + 1)
  let x := (List.range m).map fun i => blk (s + 4 * i + 2)
  let y := (List.range m).map fun i => (blk (s + 4 * i) &&& blk (s + 4 * i + 1)) ^^^ blk (s + 4 * i + 2)
  ([(a, x)], [(b, y)])
def env (s n : Nat) (c : Cir) : Env := ⟨fun i j => blk (s + i * 31 + j), fun i j => blk (s + 99 + i * 31 + j), fun i j => rnd (s + i * 5 + j) 2 == 1, fun i j => rnd (s + i * 3 + j) 2 == 0, (oles s n c).1, (oles s n c).2⟩
def mem (s : Nat) : Mem := ⟨fun i => 1 + (s + i) % 2, fun i => 1 + (s + i + 1) % 2, fun i j r => rnd (s + i * 77 + j * 13 + r) 2 == 1, fun i j => blk (s + i * 17 + j)⟩
def hot (L : Nat) : Cir :=
  ⟨L + 2 ^ L + 2 ^ L, [List.range L], [List.range' L (2 ^ L)],
    ([⟨0, 0, nodeWire L 0, .nxor⟩] : List Gmw.Gate) :: (oneHotOps L).map fun o => match o with | .gate g => [g] | .inv w => [⟨w, w, w, .nor⟩]⟩
def add (w : Nat) : Cir :=
  ⟨4 * w + 3, [List.range w, List.range' w w], [List.range' (2 * w) w],
    ([⟨0, 0, 3 * w, .xor⟩] : List Gmw.Gate) :: (List.range w).flatMap fun j => ([⟨j, 3 * w + j, 4 * w + 1, .xor⟩, ⟨w + j, 3 * w + j, 4 * w + 2, .xor⟩, ⟨4 * w + 1, w + j, 2 * w + j, .xor⟩,
      ⟨4 * w + 1, 4 * w + 2, 4 * w + 1, .and⟩, ⟨4 * w + 1, 3 * w + j, 3 * w + j + 1, .xor⟩] : List Gmw.Gate).map fun g => [g]⟩
def ots (s n : Nat) : List Ot := (List.range n).map fun i => ⟨BitVec.ofNat 32 (rnd (s + 2 * i) (2 ^ 32)), BitVec.ofNat 32 (rnd (s + 2 * i + 1) (2 ^ 32)), rnd (s + i) 2 == 1⟩
def round (s n L : Nat) : RoundEnv := ⟨env s n (hot L), [ots s (n * 2 ^ L)], [ots (s + 500) (n * 2 ^ L)], [ots (s + 900) (n * 2 ^ L)], env (s + 40) n (add (sumBits n))⟩

/-! The tree circuits for values of `wd` bits and an operator given by its gates; `rs` are the bundles that occur. -/
def Instr.regs : Instr → List Reg
  | .op a b d => [a, b, d] | .mux t e c d x => [t, e, c, d, x] | .andBit a b d => [a, b, d] | .xor a b d => [a, b, d] | .andChoice a c d => [a, c, d] | .copy a d => [a, d]
def Port.reg : Port → Reg
  | .v r => r | .b r => r
def regs (k : Circ) : List Reg := ((k.ins ++ k.outs).map Port.reg ++ k.steps.flatMap Instr.regs).eraseDups
def wire (rs : List Reg) (wd : Nat) (r : Reg) (j : Nat) : Nat := rs.idxOf r * wd + j
/-- The gates of a step by their levels; `op a b d t` has the wires from `t` on for itself. -/
def gates (rs : List Reg) (wd : Nat) (op : Nat → Nat → Nat → Nat → List (List Gmw.Gate)) : Instr → List (List Gmw.Gate)
  | .op a b d => op (wire rs wd a 0) (wire rs wd b 0) (wire rs wd d 0) (rs.length * wd)
  | .mux t e c d x => [(List.range wd).map fun j => ⟨wire rs wd t j, wire rs wd e j, wire rs wd x j, .xor⟩, (List.range wd).map fun j => ⟨wire rs wd x j, wire rs wd c 0, wire rs wd x j, .and⟩,
      (List.range wd).map fun j => ⟨wire rs wd e j, wire rs wd x j, wire rs wd d j, .xor⟩]
  | .andBit a b d => [[⟨wire rs wd a 0, wire rs wd b 0, wire rs wd d 0, .and⟩]]
  | .xor a b d => [(List.range wd).map fun j => ⟨wire rs wd a j, wire rs wd b j, wire rs wd d j, .xor⟩]
  | .andChoice a c d => [(List.range wd).map fun j => ⟨wire rs wd a j, wire rs wd c 0, wire rs wd d j, .and⟩]
  | .copy a d => [(List.range wd).map fun j => ⟨wire rs wd a j, wire rs wd a j, wire rs wd d j, .a⟩]
def port (rs : List Reg) (wd : Nat) : Port → List Nat
  | .v r => List.range' (wire rs wd r 0) wd
  | .b r => [wire rs wd r 0]
def cir (wd : Nat) (op : Nat → Nat → Nat → Nat → List (List Gmw.Gate)) (k : Circ) : Cir :=
  let rs := regs k
  ⟨rs.length * wd + 4, k.ins.map (port rs wd), k.outs.map (port rs wd), k.steps.flatMap (gates rs wd op)⟩
def tree (s n wd : Nat) (op : Nat → Nat → Nat → Nat → List (List Gmw.Gate)) (t : AggType) : TreeEnv :=
  let p := match computeTreeSizes n with | .ok p => p | .error _ => ⟨0, 0, 0, true, []⟩
  let m := fun j => p.sizes.getD j 0 / 2
  let c := cir wd op
  ⟨c (upstreamCir t), c (downstreamCir t), c (leafCircuit t), fun j => env (s + j) (m j) (c (upstreamCir t)), fun j => mem (s + j), fun j => mem (s + j + 5),
    fun j => env (s + j + 50) (m j) (c (downstreamCir t)), fun j => mem (s + j + 2), fun j => mem (s + j + 1), env (s + 70) (p.n16 / 2) (c (leafCircuit t)), mem s, mem (s + 1)⟩
def dupOp (wd : Nat) (a _ d _ : Nat) : List (List Gmw.Gate) := [(List.range wd).map fun j => ⟨a + j, a + j, d + j, .a⟩]
/-- Adders of the given widths side by side. -/
def sumOp : List Nat → Nat → Nat → Nat → Nat → List (List Gmw.Gate)
  | [], _, _, _, _ => []
  | s :: ss, a, b, d, t =>
    [⟨t, t, t, .xor⟩] :: (((List.range s).flatMap fun j => ([⟨a + j, t, t + 1, .xor⟩, ⟨b + j, t, t + 2, .xor⟩, ⟨t + 1, b + j, t + 3, .xor⟩, ⟨t + 1, t + 2, t + 1, .and⟩, ⟨t + 1, t, t, .xor⟩,
      ⟨t + 3, t + 3, d + j, .a⟩] : List Gmw.Gate).map fun g => [g]) ++ sumOp ss (a + s) (b + s) (d + s) t)
def ctrl (bits : Nat) : Cir := ⟨4 * bits + 2, [List.range bits, List.range' bits bits], [[2 * bits]], (ctrlOps bits).map fun o => match o with | .gate g => [g] | .inv w => [⟨w, w, w, .nor⟩]⟩
def flag (t : Gmw.GateType) : Cir := ⟨3, [[0], [1]], [[2]], [[⟨0, 1, 2, t⟩]]⟩

def mat (s n c m : Nat) : List Row := (List.range n).map fun i => (List.range c).map fun j => BitVec.ofNat 8 (rnd (s * 7919 + i * 131 + j) m)
def xm (a b : List Row) : List Row := List.zipWith (List.zipWith (· ^^^ ·)) a b
def col (nm bits : Nat) (rows : List Row) : Column := ⟨⟨[BitVec.ofNat 8 nm], .int, bits⟩, ⟨bits, (bits + 7) / 8, rows⟩⟩
def pc (s n b : Nat) : Res (ComposedPerm × ComposedPerm) :=
  ComposedPerm.genPerm ⟨rperm s n⟩ (fun i => rnd (i + s) (2 ^ 32)) b (mat (s + 1) n (16 * ((b + 15) / 16)) 256) (mat (s + 2) n (16 * ((b + 15) / 16)) 256)
    (mat (s + 3) n (16 * ((b + 15) / 16)) 256) (mat (s + 4) n (16 * ((b + 15) / 16)) 256)
def genv (s n bits L wd : Nat) (op : Nat → Nat → Nat → Nat → List (List Gmw.Gate)) (t : AggType) (g : Gmw.GateType) : Res GmwEnv := do
  let rest ← mapRes (fun i => do let (a, b) ← pc (s + i + 5) n 9; .ok (a, b, round (s + i * 9 + 1) n L)) (List.range ((bits + L - 1) / L - 1))
  .ok ⟨hot L, add (sumBits n), round s n L, rest, ctrl bits, env (s + 3) n (ctrl bits), tree s n wd op t, flag g, env (s + 4) n (flag g)⟩

end SecJoin.Checks.GmwUtil
