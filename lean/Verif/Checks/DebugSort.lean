import Verif.Sort.Debug
import Verif.Checks.Util
/-! Instances of C77, evaluated. -/
namespace SecJoin.Checks.DebugSort
open SecJoin.Radix

def val (r : Row) : Nat := ((List.range r.length).map fun i => (r.getD i 0).toNat * 256 ^ i).sum
def mat (s n c m : Nat) : List Row := (List.range n).map fun i => (List.range c).map fun j => BitVec.ofNat 8 (rnd (s * 7919 + i * 131 + j) m)
def xm (a b : List Row) : List Row := List.zipWith (List.zipWith (· ^^^ ·)) a b
def rank (n : Nat) (key : Nat → Nat) (i : Nat) : Nat := ((List.range n).filter fun a => decide (key a < key i) || (key a == key i && decide (a < i))).length
def bit (r : Row) (j : Nat) : Bool := (r.getD (j / 8) 0).getLsbD (j % 8)
def gt (len : Nat) (a b : Row) : Bool := decide (val b % 2 ^ len < val a % 2 ^ len)
def ots (s n : Nat) : List Ot := (List.range n).map fun i => ⟨BitVec.ofNat 32 (rnd (s * 1000 + 3 * i) (2 ^ 32)), BitVec.ofNat 32 (rnd (s * 1000 + 3 * i + 1) (2 ^ 32)), rnd (s * 1000 + 3 * i + 2) 2 == 1⟩
def rr (s n L : Nat) : RoundRnd where
  oh i j := rnd (s + i * 300 + j) 2 == 1
  inj := [ots s 5, ots (s + 1) (n * 2 ^ L)]
  otA := [ots (s + 2) (2 ^ L), ots (s + 3) (n * 2 ^ L)]
  otB := [ots (s + 4) (2 * 2 ^ L), ots (s + 5) (n * 2 ^ L)]
  mask i := BitVec.ofNat 32 (rnd (s + 77 * i) (2 ^ 32))
def pc (s n b : Nat) : Res (ComposedPerm × ComposedPerm) :=
  ComposedPerm.genPerm ⟨rperm s n⟩ (fun i => rnd (i + s) (2 ^ 32)) b (mat (s + 1) n (16 * ((b + 15) / 16)) 256) (mat (s + 2) n (16 * ((b + 15) / 16)) 256)
    (mat (s + 3) n (16 * ((b + 15) / 16)) 256) (mat (s + 4) n (16 * ((b + 15) / 16)) 256)
def pre (n L k : Nat) : Res (List (ComposedPerm × ComposedPerm × RoundRnd)) := mapRes (fun i => do let (a, b) ← pc (i + 5) n 9; .ok (a, b, rr (i * 9 + 1) n L)) (List.range k)
/-- Keys of `bits` bits in rows of `c` bytes, the second the first XOR a key. -/
def low (c v : Nat) : Row := (List.range c).map fun i => BitVec.ofNat 8 (v / 256 ^ i)
def keys (n bits c : Nat) : List Row × List Row := let a := mat 1 n c 256; (a, List.zipWith (List.zipWith (· ^^^ ·)) a ((List.range n).map fun i => low c (rnd (i + 31) (2 ^ bits))))
def cases : List (Nat × Nat × Nat × Nat) := [(1, 3, 1, 2), (5, 11, 2, 3), (7, 8, 1, 4), (6, 9, 2, 1), (9, 5, 1, 2), (4, 16, 2, 5), (12, 4, 2, 2)]

#eval say "C77_same" <| cases.all fun (n, bits, c, L) => let (a, b) := keys n bits c
  okAnd (pre n L ((bits + L - 1) / L - 1)) fun rest => let x := Radix.genPerm n bits L ⟨bits, c, a⟩ ⟨bits, c, b⟩ (rr 3 n L) rest
    decide (x = genPermD gt n bits L ⟨bits, c, a⟩ ⟨bits, c, b⟩ (rr 3 n L) rest) && okAnd x fun _ => true
#eval say "C77_plain" <| cases.all fun (n, bits, c, L) => let (a, b) := keys n bits c
  okAnd (pre n L ((bits + L - 1) / L - 1)) fun rest => okAnd (genPermD gt n bits L ⟨bits, c, a⟩ ⟨bits, c, b⟩ (rr 3 n L) rest) fun (d0, d1) =>
    d0.length == n && d1.length == n && (List.range n).all fun i => (d0.getD i 0 ^^^ d1.getD i 0).toNat == rank n (fun j => val ((xm a b).getD j [])) i
#eval say "C77_rounds" <| cases.all fun (n, bits, c, L) => let k := (List.range n).map fun i => low c (rnd (i + 31) (2 ^ bits))
  okAnd (debugGenPerm gt bits L ⟨c, k⟩) fun ps => ps.length == (bits + L - 1) / L &&
    ps.foldl (fun d p => d.map fun i => p.pi.getD i 0) (List.range n) == (List.range n).map (rank n fun j => val (k.getD j []))
#eval say "C77_round" <| [1, 2, 3, 4, 5, 9].all fun n => [1, 2, 3, 4].all fun L => let k0 := (mat 1 n 1 256).flatten
  let k1 := (List.range n).map fun i => k0.getD i 0 ^^^ BitVec.ofNat 8 (rnd (i + 3) (2 ^ L)); let w := k1.set (n - 1) (k1.getD (n - 1) 0 ^^^ BitVec.ofNat 8 (2 ^ L))
  decide (genBitPermD n L k0 k1 (rr 10 n L) = genBitPerm n L k0 k1 (rr 10 n L)) && isThrow (genBitPermD n L k0 w (rr 10 n L)) && okAnd (genBitPerm n L k0 w (rr 10 n L)) fun _ => true
def rnds : List RoundRnd := [{ rr 10 4 2 with oh := fun _ _ => false }, rr 10 4 2, rr 20 4 2]
#eval say "C77_sound" <| rnds.all fun r => let k0 : List Byte := [1, 0, 2, 3]; let k1 : List Byte := [2, 1, 1, 3]
  okAnd (genBitPermD 4 2 k0 k1 r) fun (d0, d1) => (List.range 4).all fun i =>
    ((List.zipWith (· ^^^ ·) d0 d1).getD i 0).toNat == rank 4 (fun a => (k0.getD a 0 ^^^ k1.getD a 0).toNat) i

/-! The single checks: the values they should accept, and every value with one entry changed. -/
def dig (n L : Nat) : List Byte := (List.range n).map fun i => BitVec.ofNat 8 (rnd (i + 5 * L + n) (2 ^ L))
def hot (k : List Byte) (c : Nat) : List (List (BitVec 32)) := k.map fun x => (List.range c).map fun j => if x.toNat == j then 1 else 0
def sums (k : List Byte) (c : Nat) : List (List (BitVec 32)) := (List.range k.length).map fun i => (List.range c).map fun j =>
  BitVec.ofNat 32 (((k.filter fun x => decide (x.toNat < j)).length + ((k.take (i + 1)).filter fun x => x.toNat == j).length)) - 1
def change (m : List (List (BitVec 32))) (i j : Nat) (v : BitVec 32) : List (List (BitVec 32)) := m.set i ((m.getD i []).set j ((m.getD i []).getD j 0 + v))
def nl : List (Nat × Nat) := [(1, 1), (3, 1), (5, 2), (4, 3)]
#eval say "C77_masks" <| nl.all fun (n, L) => let k := dig n L; let f := hot k (2 ^ L); okAnd (checkMasks L k f) (fun _ => true) &&
  (List.range n).all fun i => (List.range (2 ^ L)).all fun j => [1, 2, -1].all fun v => isThrow (checkMasks L k (change f i j v))
#eval say "C77_masks" <| nl.all fun (n, L) => let k := dig n L; let f := hot k (2 ^ L); isThrow (checkMasks L k (f ++ [[]])) && isThrow (checkMasks L k f.dropLast) &&
  isThrow (checkMasks L k (f.map fun r => r ++ [0])) && isThrow (checkMasks (L + 1) k f) && isThrow (checkMasks L (k.set 0 (k.getD 0 0 ^^^ 1)) f)
#eval say "C77_sums" <| nl.all fun (n, L) => let k := dig n L; let f := hot k (2 ^ L); let s := sums k (2 ^ L); okAnd (checkAggregate (2 ^ L) f s) (fun _ => true) &&
  (List.range n).all fun i => (List.range (2 ^ L)).all fun j => [1, -1].all fun v => isThrow (checkAggregate (2 ^ L) f (change s i j v)) && isThrow (checkAggregate (2 ^ L) (change f i j v) s)
#eval say "C77_masks" <| isThrow (checkMasks 1 [0, 1] [[1, 0], [0, 1], [0, 0]]) && isThrow (checkMasks 1 [0, 1] [[1, 0], [0, 1], [1, 0]]) &&
  isThrow (checkMasks 1 [0, 1] [[1, 0, 0], [0, 1]]) && isThrow (checkMasks 1 [0, 0] [[1, 0], [1]])
#eval say "C77_sums" <| isThrow (checkAggregate 2 [[1, 0], [2, -1]] [[0, 2], [2, 1]]) && isThrow (checkAggregate 2 [[1, 0], [0, 0]] [[0, 0], [0, 0]])
#eval say "C77_sums" <| isThrow (checkAggregate 2 [[2, -1]] [[1, 0]]) && isThrow (checkAggregate 2 [[0, 0], [1, 0]] [[-1, 0], [0, 0]]) && isThrow (checkAggregate 2 [[1, 1]] [[0, 1]])
#eval say "C77_products" <| [(1, 2), (3, 4), (5, 8), (2, 3)].all fun (n, c) => let f := (mat 4 ((n * c + 7) / 8) 1 256).flatten
  let s := (List.range n).map fun i => (List.range c).map fun j => BitVec.ofNat 32 (rnd (i * 50 + j) (2 ^ 32))
  let d := (List.range n).map fun i => (List.range c).foldl (fun x j => if bit f (i * c + j) then x + (s.getD i []).getD j 0 else x) 0
  okAnd (checkInner f c 0 s d) (fun _ => true) && (List.range n).all fun i => isThrow (checkInner f c 0 s (d.set i (d.getD i 0 + 1))) && isThrow (checkInner f c 0 s (d.set i (d.getD i 0 - 1)))
#eval say "C77_positions" <| [1, 2, 5, 9].all fun n => [3, 256].all fun m => let k := (mat 5 n 1 m).flatten
  let p := (List.range n).map fun i => BitVec.ofNat 32 (rank n (fun a => (k.getD a 0).toNat) i)
  okAnd (checkPos k p) (fun _ => true) && isThrow (checkPos k (p ++ [0])) && isThrow (checkPos k p.dropLast) &&
    (List.range n).all fun i => isThrow (checkPos k (p.set i (p.getD i 0 + 1))) && isThrow (checkPos k (p.set i (p.getD i 0 + 65536)))
#eval say "C77_digits" <| [1, 2, 5].all fun n => [(1, 0, 4), (2, 6, 5), (3, 15, 8), (2, 8, 8), (1, 3, 5)].all fun (c, b, s) => let x := mat 6 n c 256
  let v := (List.range n).map fun i => BitVec.ofNat 8 (val (x.getD i []) / 2 ^ b % 2 ^ s); okAnd (checkExtract x.flatten c b s 0 v) (fun _ => true) &&
    (List.range n).all fun i => (List.range s).all fun j => let w := v.set i (v.getD i 0 ^^^ BitVec.ofNat 8 (2 ^ j))
      if i + 1 < n then isThrow (checkExtract x.flatten c b s 0 w) else okAnd (checkExtract x.flatten c b s 0 w) fun _ => true
#eval say "C77_digits" <| [1, 4].all fun n => [1, 2, 3].all fun c => let k : Mat Row := ⟨c, mat (n + c) n c 256⟩
  (List.range (8 * c)).all fun b => (List.range 8).all fun s => decide (extractD b (s + 1) k = extract b (s + 1) k)

end SecJoin.Checks.DebugSort
