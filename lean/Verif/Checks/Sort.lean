import Verif.Sort.Radix
import Verif.Join.OmModel
import Verif.Table.AvgModel
import Verif.Join.OmRemove
import Verif.Checks.Util
/-!
# Tests of C16 to C22 and C31 to C33
-/
namespace SecJoin.Checks.Sort

def val (r : Row) : Nat := ((List.range r.length).map fun i => (r.getD i 0).toNat * 256 ^ i).sum
def mat (s n c m : Nat) : List Row := (List.range n).map fun i => (List.range c).map fun j => BitVec.ofNat 8 (rnd (s * 7919 + i * 131 + j) m)
def xm (a b : List Row) : List Row := List.zipWith (List.zipWith (· ^^^ ·)) a b
def rank (n : Nat) (key : Nat → Nat) (i : Nat) : Nat := ((List.range n).filter fun a => decide (key a < key i) || (key a == key i && decide (a < i))).length
def bit (r : Row) (j : Nat) : Bool := (r.getD (j / 8) 0).getLsbD (j % 8)

/-! ## Plaintext -/
#eval say "C16_sort" <| [(0, 2, 4), (1, 1, 4), (9, 2, 3), (17, 3, 256), (30, 1, 4)].all fun (n, c, m) => let x := mat 1 n c m; let p := plainSort x
  p.mergeSort == List.range n && (List.range n).all fun i => p.getD (rank n (fun a => val (x.getD a [])) i) 0 == i
def col (nm bits : Nat) (rows : List Row) : Column := ⟨⟨[BitVec.ofNat 8 nm], .int, bits⟩, ⟨bits, (bits + 7) / 8, rows⟩⟩
#eval say "C16_table" <| let a := mat 1 20 1 3; let b := mat 2 20 2 2; let f := (List.range 20).map fun i => BitVec.ofNat 8 (rnd i 2)
  okAnd (Table.sort ⟨f, [col 97 8 a, col 98 16 b]⟩) fun t => (List.range 20).all fun i =>
    let k := rank 20 (fun j => val (a.getD j []) * 65536 + val (b.getD j [])) i
    t.isActive.getD k 9 == f.getD i 8 && t.cols.map (fun c => c.data.rows.getD k []) == [a.getD i [], b.getD i []] && t.cols.length == 2
def jl : List Row := (rperm 3 12).map fun i => [BitVec.ofNat 8 (i * 3), BitVec.ofNat 8 (i / 4)]
def jr : List Row := (List.range 20).map fun i => let k := rnd i 15; [BitVec.ofNat 8 (k * 3), BitVec.ofNat 8 (k / 4)]
#eval say "C17_join" <| let L := col 97 16 jl; let R := col 98 16 jr; let x := col 99 8 (mat 5 12 1 256); let y := col 100 24 (mat 6 20 3 256)
  okAnd (Table.join L R [(.left, x), (.right, y), (.left, L)]) fun t => t.isActive.length == 20 && (List.range 20).all fun i =>
    let d := rank 20 (fun j => val (jr.getD j [])) i; let row := t.cols.map fun c => c.data.rows.getD d [9]
    if jl.contains (jr.getD i []) then t.isActive.getD d 9 == 1 && row == [x.data.rows.getD (jl.idxOf (jr.getD i [])) [], y.data.rows.getD i [], jr.getD i []]
    else t.isActive.getD d 9 == 0 && row == [[0], [0, 0, 0], [0, 0]]
#eval say "C17_refused" <| isThrow (Table.join (col 97 16 jl) (col 98 8 []) []) &&
  isThrow (Table.join (col 97 8 [[5], [3], [5]]) (col 98 8 [[6], [1]]) []) && isThrow (Table.join (col 97 8 [[5], [3], [3], [7]]) (col 98 8 [[7]]) []) &&
  isThrow (Table.join (col 97 8 [[1]]) (col 98 8 [[1]]) [(.other, col 97 8 [[1]])])
def le (k v : Nat) : Row := (List.range k).map fun i => BitVec.ofNat 8 (v / 256 ^ i)
#eval say "C18_average" <| let K := mat 3 25 1 6; let a := mat 8 25 2 256; let b := mat 9 25 1 256
  [[], List.replicate 25 1, (List.range 25).map fun i => BitVec.ofNat 8 (rnd (i + 7) 2)].all fun act =>
  okAnd (Table.average (col 97 8 K) [col 98 16 a, col 99 8 b] act) fun t => t.isActive.length == 25 && (List.range 25).all fun i =>
    let g := (List.range 25).filter fun j => K.getD j [] == K.getD i []
    if g.head? == some i then let f := if act == [] then (1 : Byte) else act.getD i 0
      t.isActive.getD i 9 == f && (f == 0 || t.cols.map (fun c => c.data.rows.getD i []) ==
        [K.getD i [], le 2 ((g.map fun j => val (a.getD j [])).sum % 65536), le 1 ((g.map fun j => val (b.getD j [])).sum % 256), le 8 g.length])
    else t.isActive.getD i 9 == 0

/-! ## Secure sort -/
open SecJoin.Radix
#eval say "C21_extract" <| [1, 2, 5].all fun n => [1, 2, 3].all fun c => let k : Mat Row := ⟨c, mat (n + c) n c 256⟩
  (List.range (8 * c)).all fun b => (List.range 8).all fun s => okAnd (extract b (s + 1) k) fun v => v.length == n &&
    (List.range n).all fun i => (List.range 8).all fun j => (v.getD i 0).getLsbD j == (decide (j < s + 1) && bit (k.rows.getD i []) (b + j))
#eval say "C21_refused" <| isThrow (extract 0 9 ⟨2, mat 1 2 2 256⟩) && isThrow (extract 3 16 ⟨2, mat 1 2 2 256⟩)
def ots (s n : Nat) : List Ot := (List.range n).map fun i => ⟨BitVec.ofNat 32 (rnd (s * 1000 + 3 * i) (2 ^ 32)), BitVec.ofNat 32 (rnd (s * 1000 + 3 * i + 1) (2 ^ 32)), rnd (s * 1000 + 3 * i + 2) 2 == 1⟩
#eval say "C22_inject" <| [(32, 2 ^ 32), (25, 2 ^ 25), (30, 2 ^ 30)].all fun (ob, md) => [(1, 7, 1), (5, 13, 2), (3, 16, 2), (4, 1, 1)].all fun (n, w, c) =>
  let a := mat 1 n c 256; let b := mat 2 n c 256; [[n * w], [n * w + 3], [1, n * w - 1], [3, 2, n * w]].all fun l =>
  okAnd (bitInjection n w ob ⟨c, a⟩ ⟨c, b⟩ (l.zipIdx.map fun (x, i) => ots (i + 1) x)) fun (o0, o1) => o0.length == n * w && o1.length == n * w &&
    (List.range n).all fun i => (List.range w).all fun j => ((o0.getD (i * w + j) 0).toNat + (o1.getD (i * w + j) 0).toNat) % md ==
      if bit (a.getD i []) j == bit (b.getD i []) j then 0 else 1
#eval say "C22_refused" <| let m : Mat Row := ⟨1, [[1], [2]]⟩; isThrow (bitInjection 2 9 32 m m [ots 1 40]) && isThrow (bitInjection 3 4 32 m m [ots 1 40]) &&
  isThrow (bitInjection 2 4 32 m m [ots 1 3, ots 2 4]) && isThrow (bitInjection 2 8 32 m ⟨1, [[1]]⟩ [ots 1 40]) && isThrow (bitInjection 2 9 32 ⟨2, [[1, 1], [2, 2]]⟩ m [ots 1 40])
/-- Randomness for one round in several batches. -/
def rr (s n L : Nat) : RoundRnd where
  oh i j := rnd (s + i * 300 + j) 2 == 1
  inj := [ots s 5, ots (s + 1) (n * 2 ^ L)]
  otA := [ots (s + 2) (2 ^ L), ots (s + 3) (n * 2 ^ L)]
  otB := [ots (s + 4) (2 * 2 ^ L), ots (s + 5) (n * 2 ^ L)]
  mask i := BitVec.ofNat 32 (rnd (s + 77 * i) (2 ^ 32))
#eval say "C19_round" <| [1, 2, 3, 4, 5, 9].all fun n => [1, 2, 3, 4].all fun L => let k0 := (mat 1 n 1 256).flatten; let k1 := (mat 2 n 1 256).flatten
  okAnd (genBitPerm n L k0 k1 (rr 10 n L)) fun (d0, d1) => d0.length == n && d1.length == n && (List.range n).all fun i =>
    (d0.getD i 0 ^^^ d1.getD i 0).toNat == rank n (fun a => (k0.getD a 0 ^^^ k1.getD a 0).toNat % 2 ^ L) i
#eval say "C19_wide" <| [5, 8].all fun L => let n := 6; let k0 := (mat 1 n 1 256).flatten; let k1 := (mat 2 n 1 256).flatten
  okAnd (genBitPerm n L k0 k1 (rr 10 n L)) fun (d0, d1) => (List.range n).all fun i =>
    (d0.getD i 0 ^^^ d1.getD i 0).toNat == rank n (fun a => (k0.getD a 0 ^^^ k1.getD a 0).toNat % 2 ^ L) i
#eval say "C19_refused" <| isThrow (genBitPerm 2 9 [1, 2] [1, 2] (rr 1 2 9)) && isThrow (genBitPerm 3 2 [1, 2] [1, 2, 3] (rr 1 3 2)) && isThrow (genBitPerm 3 2 [1, 2, 3] [1, 2] (rr 1 3 2))
def pc (s n b : Nat) : Res (ComposedPerm × ComposedPerm) :=
  ComposedPerm.genPerm ⟨rperm s n⟩ (fun i => rnd (i + s) (2 ^ 32)) b (mat (s + 1) n (16 * ((b + 15) / 16)) 256) (mat (s + 2) n (16 * ((b + 15) / 16)) 256)
    (mat (s + 3) n (16 * ((b + 15) / 16)) 256) (mat (s + 4) n (16 * ((b + 15) / 16)) 256)
def pre (n L k : Nat) : Res (List (ComposedPerm × ComposedPerm × RoundRnd)) := mapRes (fun i => do let (a, b) ← pc (i + 5) n 9; .ok (a, b, rr (i * 9 + 1) n L)) (List.range k)
#eval say "C20_sort" <| [(1, 3, 1, 2), (5, 11, 2, 3), (7, 8, 1, 4), (6, 9, 2, 1), (9, 5, 1, 2), (4, 16, 2, 5)].all fun (n, bits, c, L) =>
  let a := mat 1 n c 256; let b := mat 2 n c 256; let rounds := (bits + L - 1) / L
  okAnd (pre n L (rounds - 1)) fun rest => okAnd (Radix.genPerm n bits L ⟨bits, c, a⟩ ⟨bits, c, b⟩ (rr 3 n L) rest) fun (d0, d1) => d0.length == n && d1.length == n &&
    (List.range n).all fun i => (d0.getD i 0 ^^^ d1.getD i 0).toNat == rank n (fun j => val ((xm a b).getD j []) % 2 ^ (L * rounds)) i
#eval say "C20_mock" <| [(1, 8, 1), (9, 16, 2)].all fun (n, bits, c) => let a := mat 1 n c 256; let b := mat 2 n c 256
  okAnd (mockSort n bits ⟨bits, c, a⟩ ⟨bits, c, b⟩) fun (d0, d1) => d0.length == n && d1.length == n &&
    (List.range n).all fun i => (d0.getD i 0 ^^^ d1.getD i 0).toNat == rank n (fun j => val ((xm a b).getD j [])) i
#eval say "C20_refused" <| let k : BinMatrix := ⟨8, 1, [[1], [2]]⟩; isThrow (Radix.genPerm 3 8 2 k k (rr 1 3 2) []) && isThrow (Radix.genPerm 2 7 2 k k (rr 1 3 2) []) &&
  isThrow (Radix.genPerm 2 8 2 k ⟨8, 1, [[1]]⟩ (rr 1 3 2) []) && isThrow (Radix.genPerm 2 8 2 k ⟨7, 1, [[1], [2]]⟩ (rr 1 3 2) []) && isThrow (mockSort 3 8 k k) && isThrow (mockSort 2 9 k k)

/-! ## Join -/
open SecJoin.OmJoin
#eval say "C31_compared" <| [1, 2, 3, 4, 7, 8, 16, 20, 32].all fun b => let p := 2 ^ Nat.log 2 b; (ctrlBit b (fun t => t % 3 == 0) fun t => t % 3 == 0) &&
  (ctrlBit b (fun t => t % 3 == 0) fun t => t % 3 == 0 || decide (p ≤ t)) && (List.range p).all fun k => !(ctrlBit b (fun t => t % 3 == 0) fun t => (t % 3 == 0) ^^ (t == k))
#eval say "C31_rows" <| [1, 8, 16].all fun b => let rows := (mat 4 9 4 3); okAnd (controlBits 1 b rows) fun c => c.length == 9 && c.head? == some false && (List.range 8).all fun i =>
  c.getD (i + 1) false == (List.range b).all fun t => bit ((rows.getD i []).drop 1) t == bit ((rows.getD (i + 1) []).drop 1) t
#eval say "C33_budget" <| [1, 8, 12, 33, 64].all fun kb => [[], [5], [8, 20], [64, 1, 9]].all fun l => (List.range (8 * ((kb + 7) / 8) + 1)).all fun ks =>
  let s := l.map fun b => (true, col 1 b []); decide (4 + dataBytes s kb + (flagByte s + 1) ≤ permBytes (8 * dataBytes s kb) ks)
def sh (b nm s n c m : Nat) : Column × Column := let v := mat s n c m; let a := mat (s + 1) n c (2 ^ min 8 b); (col nm b a, col nm b (xm a v))
/-- A join of `nL` rows with distinct keys and `nR` rows. -/
def joinOk (cs nL nR bits L : Nat) (dup : Bool) : Bool := Id.run do
  let c := (bits + 7) / 8; let cap := 2 ^ min 8 bits
  let lk := ((rperm 5 nL).map fun i => (List.range c).map fun j => BitVec.ofNat 8 (if j == 0 then (if dup then i / 2 else i) else i * j) : List Row)
  let rk := ((List.range nR).map fun i => (List.range c).map fun j => BitVec.ofNat 8 (if j == 0 then rnd i (nL + 2) % cap else rnd i (nL + 2) * j) : List Row)
  let m1 := mat 7 nL c cap; let m2 := mat 8 nR c cap
  let (x0, x1) := sh 12 99 20 nL 2 256; let (y0, y1) := sh 8 100 30 nR 1 256; let (z0, z1) := sh 24 101 40 nL 3 256
  let q0 : Query := ⟨col 97 bits m1, col 98 bits m2, [(true, x0), (false, y0), (true, z0)]⟩
  let q1 : Query := ⟨col 97 bits (xm m1 lk), col 98 bits (xm m2 rk), [(true, x1), (false, y1), (true, z1)]⟩
  let n := nL + nR; let B := 4 + dataBytes q0.select bits + (flagByte q0.select + 1)
  let r := okAnd (pc 3 n B) fun (p0, p1) => okAnd (pre n L ((bits + L - 1) / L)) fun rest =>
    okAnd (OmJoin.join L cs (fun r => r.map (· ^^^ 0)) q0 q1 p0 p1 ⟨rr 3 n L, rest, fun i => (mat 50 1 64 256).head!.map (· + BitVec.ofNat 8 i), fun i => rnd i 2 == 1⟩) fun (t0, t1) =>
      t0.isActive.length == nR && t1.isActive.length == nR && t0.cols.length == 3 && t1.cols.length == 3 && t0.cols.getD 1 x0 == y0 && t1.cols.getD 1 x0 == y1 &&
      (t0.cols.map (·.info)) == [x0.info, y0.info, z0.info] && (List.range nR).all fun i =>
        let f := (t0.isActive.getD i 0 ^^^ t1.isActive.getD i 0); let row := List.zipWith (fun (a b : Column) => List.zipWith (· ^^^ ·) (a.data.rows.getD i []) (b.data.rows.getD i [])) t0.cols t1.cols
        let pickR (a b : Column) (k : Nat) := List.zipWith (· ^^^ ·) (a.data.rows.getD k []) (b.data.rows.getD k [])
        if lk.contains (rk.getD i []) then let k := lk.idxOf (rk.getD i []); f == 1 && row.getD 0 [] == pickR x0 x1 k && row.getD 2 [] == pickR z0 z1 k
        else f == 0 && row.getD 0 [] == [0, 0] && row.getD 2 [] == [0, 0, 0]
  return r
#eval say "C32_join" <| joinOk 100 3 4 8 4 false && joinOk 100 2 5 16 8 false && joinOk 100 5 3 8 3 true && joinOk 100 4 4 4 2 false && joinOk 100 1 1 2 2 false
#eval say "C32_encoded" <| joinOk 8 3 4 8 4 false && joinOk 8 4 6 8 4 false
#eval say "C32_refused" <| isThrow (loadKeys 40 id (col 97 8 [[1]]) (col 98 16 [[1, 1]]))
#eval say "C32_keys" <| (okAnd (loadKeys 10 (fun r => r.take 2) (col 97 24 [[1, 2, 3]]) (col 98 24 [[4, 5, 6]])) fun k => k.bits == 10 && k.rows == [[1, 2], [4, 5]]) &&
  (okAnd (loadKeys 24 (fun r => r.take 2) (col 97 24 [[1, 2, 3]]) (col 98 24 [[4, 5, 6]])) fun k => k.bits == 24 && k.rows == [[1, 2, 3], [4, 5, 6]])
#eval say "C32_empty" <| isUb (loadKeys 40 id (col 97 8 []) (col 98 8 [[1]])) && isUb (loadKeys 40 id (col 97 8 [[1]]) (col 98 8 [])) && isThrow (loadKeys 40 id (col 97 8 []) (col 98 16 [[1, 1]]))
/-- The same join with the removal of inactive rows, `B` bytes per row asked for. -/
def activeOk (nL nR bits L B : Nat) : Res Bool := do
  let c := (bits + 7) / 8; let cap := 2 ^ min 8 bits
  let lk := ((rperm 5 nL).map fun i => (List.range c).map fun j => BitVec.ofNat 8 (if j == 0 then i else i * j) : List Row)
  let rk := ((List.range nR).map fun i => (List.range c).map fun j => BitVec.ofNat 8 (if j == 0 then rnd i (nL + 2) % cap else rnd i (nL + 2) * j) : List Row)
  let m1 := mat 7 nL c cap; let m2 := mat 8 nR c cap
  let (x0, x1) := sh 12 99 20 nL 2 256; let (y0, y1) := sh 80 100 30 nR 10 256; let (z0, z1) := sh 24 101 40 nL 3 256
  let q0 : Query := ⟨col 97 bits m1, col 98 bits m2, [(true, x0), (false, y0), (true, z0)]⟩
  let q1 : Query := ⟨col 97 bits (xm m1 lk), col 98 bits (xm m2 rk), [(true, x1), (false, y1), (true, z1)]⟩
  let n := nL + nR
  let (p0, p1) ← pc 3 n (4 + dataBytes q0.select bits + (flagByte q0.select + 1))
  let (e0, e1) ← pc 13 nR B
  let rest ← pre n L ((bits + L - 1) / L)
  let (t0, t1) ← joinActive L 100 id q0 q1 p0 p1 e0 e1 ⟨rr 3 n L, rest, fun i => (mat 50 1 64 256).head!.map (· + BitVec.ofNat 8 i), fun i => rnd i 2 == 1⟩
  let at' (a b : Column) (k : Nat) := List.zipWith (· ^^^ ·) (a.data.rows.getD k []) (b.data.rows.getD k [])
  .ok (removeBytes q0.select == 16 && t0.isActive == [] && t1.isActive == [] && t0.cols.map (·.info) == [x0.info, y0.info, z0.info] && t1.cols.map (·.info) == [x0.info, y0.info, z0.info] &&
    (List.range t0.rows).map (fun i => List.zipWith (at' · · i) t0.cols t1.cols) == ((rperm 13 nR).filter fun r => lk.contains (rk.getD r [])).map fun r =>
      let k := lk.idxOf (rk.getD r []); [at' x0 x1 k, at' y0 y1 r, at' z0 z1 k])
#eval say "C32_removed" <| [(3, 4, 8, 4), (2, 5, 16, 8), (4, 4, 4, 2), (1, 3, 2, 2)].all fun (a, b, c, d) => okAnd (activeOk a b c d 16) id
#eval say "C32_removed_budget" <| isThrow (do let x ← pc 1 3 16; removeInactive 3 x.1 x.2 (.ok (⟨[1, 1, 0], [col 1 128 (mat 1 3 16 256)]⟩, ⟨[0, 1, 0], [col 1 128 (mat 2 3 16 256)]⟩))) &&
  okAnd (do let y ← pc 2 3 17; removeInactive 3 y.1 y.2 (.ok (⟨[1, 1, 0], [col 1 128 (mat 1 3 16 256)]⟩, ⟨[0, 1, 0], [col 1 128 (mat 2 3 16 256)]⟩))) fun (a, b) => a.rows == 1 && b.rows == 1

end SecJoin.Checks.Sort
