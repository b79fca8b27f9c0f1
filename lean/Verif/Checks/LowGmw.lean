import Verif.PermCor.LowGmw
import Verif.Prf.LowMC
import Verif.Checks.Util
/-! An instance of `C58_lowMC_protocol`, evaluated. -/
namespace SecJoin.Checks.LowGmw
open SecJoin.PrfGen

def blk (s : Nat) : Gmw.Block := BitVec.ofNat 128 (rnd (2 * s) (2 ^ 64) * 2 ^ 64 + rnd (2 * s + 1) (2 ^ 64))
def word (s W : Nat) : List Gmw.Block := (List.range W).map fun i => blk (s * 100 + i)
def big (s : Nat) : LBlock := blk (3 * s + 1) ++ blk (3 * s + 2)
def src : LowMC.Source 256 5 := ⟨fun _ => none, fun _ => [fun i => BitVec.ofNat 256 (2 ^ i) ||| BitVec.ofNat 256 (2 ^ ((i + 7) % 256)) ||| BitVec.ofNat 256 (2 ^ ((3 * i + 5) % 256))], fun _ => none,
  fun _ => [fun i => BitVec.ofNat 5 (rnd i 32)], fun i => big (i + 77), 0⟩
def junk0 (r k : Nat) : Gmw.Block := blk (17 * r + k)
def junk1 (r k : Nat) : Gmw.Block := blk (19 * r + k + 7000)
def pad (j r : Nat) : Bool := rnd (j * 1000 + r) 2 == 1
def ole (l : Nat) : List (List Gmw.Block × List Gmw.Block) × List (List Gmw.Block × List Gmw.Block) :=
  let a := word 11 l; let b := word 12 l; let c := word 13 l
  ([(a, b)], [(c, List.zipWith (· ^^^ ·) (List.zipWith (· &&& ·) a c) b)])
def run (boxes rounds n bytes : Nat) (perm : List Nat) : Res (List (List (BitVec 8)) × List (List (BitVec 8)) × List (List (BitVec 8)) × List Nat) := do
  let c ← LowMC.create 256 5 boxes rounds false src 0x15
  let c := { c with roundKeys := (List.range (rounds + 1)).map fun i => big (900 + i) }
  let cir ← LowMC.toEncCircuit c
  let levels := cir.gates.map fun g => [g]
  let (s0, s1) := ole (Gmw.numOles (n * ((bytes + 31) / 32)) levels / 128)
  let (s, r) ← lowGenerate (fun x => match LowMC.encrypt c x with | .ok y => y | .error _ => 0) (lowGmw junk0 junk1 pad pad cir levels s0 s1 c.roundKeys) n bytes ⟨perm⟩
    { perm := ⟨[]⟩, delta := [], cols := 0, off := 0 } { a := [], b := [], cols := 0, off := 0 }
  .ok (s.delta, r.a, r.b, s.perm.pi)
#eval say "C58_lowMC_protocol" <| [(1, 2, 3, 33, [2, 0, 1]), (85, 1, 5, 16, [3, 1, 4, 0, 2]), (0, 0, 2, 64, [1, 0])].all fun (boxes, rounds, n, bytes, perm) =>
  okAnd (run boxes rounds n bytes perm) fun (d, a, b, p) => p == perm && d.length == n && a.length == n && b.length == n &&
    (List.range n).all fun i => let l := (bytes + 15) / 16 * 16
      (d.getD i []).length == l && (a.getD i []).length == l && (b.getD i []).length == l &&
      (List.range l).all fun j => ((d.getD i []).getD j 0 ^^^ (b.getD i []).getD j 0) == (a.getD (perm.getD i 0) []).getD j 0
end SecJoin.Checks.LowGmw
