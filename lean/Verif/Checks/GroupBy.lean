import Verif.TableOps.GroupBy
import Verif.Checks.Util
/-!
# Tests of C34
-/
namespace SecJoin.Checks.GroupBy
open SecJoin.GroupBy
open SecJoin.Radix

def mat (s n c m : Nat) : List Row := (List.range n).map fun i => (List.range c).map fun j => BitVec.ofNat 8 (rnd (s * 7919 + i * 131 + j) m)
def xm (a b : List Row) : List Row := List.zipWith (List.zipWith (· ^^^ ·)) a b
def col (nm bits : Nat) (rows : List Row) : Column := ⟨⟨[BitVec.ofNat 8 nm], .int, bits⟩, ⟨bits, (bits + 7) / 8, rows⟩⟩
def ots (s n : Nat) : List Ot := (List.range n).map fun i => ⟨BitVec.ofNat 32 (rnd (s * 1000 + 3 * i) (2 ^ 32)), BitVec.ofNat 32 (rnd (s * 1000 + 3 * i + 1) (2 ^ 32)), rnd (s * 1000 + 3 * i + 2) 2 == 1⟩
def rr (s n L : Nat) : RoundRnd where
  oh i j := rnd (s + i * 300 + j) 2 == 1
  inj := [ots s 5, ots (s + 1) (n * 2 ^ L)]
  otA := [ots (s + 2) (2 ^ L), ots (s + 3) (n * 2 ^ L)]
  otB := [ots (s + 4) (2 * 2 ^ L), ots (s + 5) (n * 2 ^ L)]
  mask i := BitVec.ofNat 32 (rnd (s + 77 * i) (2 ^ 32))
def pc (s n b : Nat) : Res (ComposedPerm × ComposedPerm) :=
  ComposedPerm.genPerm ⟨rperm s n⟩ (fun i => rnd (i + s) (2 ^ 32)) b (mat (s + 1) n (16 * ((b + 15) / 16)) 256) (mat (s + 2) n (16 * ((b + 15) / 16)) 256)
    (mat (s + 3) n (16 * ((b + 15) / 16)) 256) (mat (s + 4) n (16 * ((b + 15) / 16)) 256)
def pre (n L k : Nat) : Res (List (ComposedPerm × ComposedPerm × RoundRnd)) := mapRes (fun i => do let (a, b) ← pc (i + 5) n 9; .ok (a, b, rr (i * 9 + 1) n L)) (List.range k)
def val (r : Row) : Nat := ((List.range r.length).map fun i => (r.getD i 0).toNat * 256 ^ i).sum
def le (k v : Nat) : Row := (List.range k).map fun i => BitVec.ofNat 8 (v / 256 ^ i)
def rowOf (t0 t1 : Table) (i : Nat) : List Row := List.zipWith (fun (a b : Column) => List.zipWith (· ^^^ ·) (a.data.rows.getD i []) (b.data.rows.getD i [])) t0.cols t1.cols

/-- Inputs of `n` rows: keys of `bits` bits out of a few, columns of the given widths. -/
def inputs (s n bits : Nat) (ws : List Nat) (active : Bool) : Inp × Inp × List Row × List (List Row) × List Nat :=
  let c := (bits + 7) / 8
  let keys := (List.range n).map fun i => let k := rnd (s + i) 3; (List.range c).map fun j => BitVec.ofNat 8 ((k * 37 + j * k) % (if j + 1 == c then 2 ^ (bits - 8 * (c - 1)) else 256))
  let vs := ws.zipIdx.map fun (w, q) => mat (s + 40 + q) n ((w + 7) / 8) 256
  let act := (List.range n).map fun i => if active then 1 else rnd (s * 13 + i) 2
  let mk := mat (s + 3) n c 256
  let ma := ws.zipIdx.map fun (w, q) => mat (s + 70 + q) n ((w + 7) / 8) 256
  let fa := (List.range n).map fun i => rnd (s * 17 + i) 2
  (⟨col 107 bits mk, (ws.zip ma).zipIdx.map fun ((w, m), q) => col (97 + q) w m, fa.map (BitVec.ofNat 8)⟩,
   ⟨col 107 bits (xm mk keys), (ws.zip (List.zipWith xm ma vs)).zipIdx.map fun ((w, m), q) => col (97 + q) w m, List.zipWith (fun a b => BitVec.ofNat 8 (a ^^^ b)) fa act⟩,
   keys, vs, act)

def head (keys : List Row) (act : List Nat) (i : Nat) : Bool := act.getD i 0 == 1 && (List.range i).all fun a => !(act.getD a 0 == 1 && keys.getD a [] == keys.getD i [])
def expect (keys : List Row) (vs : List (List Row)) (ws act : List Nat) (i : Nat) : List Row :=
  let g := (List.range keys.length).filter fun a => act.getD a 0 == 1 && keys.getD a [] == keys.getD i []
  keys.getD i [] :: (List.zipWith (fun v w => le (w / 8) (g.map fun a => val (v.getD a [])).sum) vs ws ++ [le 8 g.length])

def rnds (s n L k : Nat) : Res Rnd := do
  let rest ← pre n L k
  .ok ⟨rr 3 n L, rest, fun i => (mat (s + 50 + i) 1 40 256).head!, fun i => rnd (s + i) 2 == 1, fun i j => BitVec.ofNat 8 (i * j)⟩

def runOk (s n bits L cs : Nat) (ws : List Nat) (active : Bool) : Bool :=
  let (i0, i1, keys, vs, act) := inputs s n bits ws active
  let ck := min cs (bits + 1)
  okAnd (rnds s n L ((ck + L - 1) / L - 1)) fun r => okAnd (pc (s + 2) n (permBytes (dataBits i0 ck) ck false)) fun (p0, p1) =>
    okAnd (groupBy L cs (fun r => r.map (· * 3)) i0 i1 p0 p1 r) fun (t0, t1) => t0.isActive.length == n && t1.isActive.length == n &&
      t0.getColumnInfo.map (fun c => (c.name, c.bits)) == (i0.key :: i0.avg).map (fun c => (c.info.name, 8 * ((c.info.bits + 7) / 8))) ++ [("Count".toUTF8.toList.map (·.toBitVec), 64)] &&
      (t0.cols ++ t1.cols).all (fun c => c.data.bits == c.info.bits && c.data.cols == c.info.bits / 8 && c.data.rows.length == n && c.data.rows.all (·.length == c.data.cols)) &&
      (List.range n).all fun i => (t0.isActive.getD i 9 ^^^ t1.isActive.getD i 9) == (if head keys act i then 1 else 0) &&
        (!head keys act i || rowOf t0 t1 i == expect keys vs ws act i)

#eval say "C34_group" <| runOk 1 4 7 4 40 [8] false && runOk 2 5 7 3 40 [16, 8] false && runOk 3 2 3 2 40 [] false && runOk 4 9 15 4 40 [24] true && runOk 5 6 1 2 40 [8, 8, 32] false && runOk 6 5 7 4 8 [64] false
#eval say "C34_no_flags" <| let (i0, i1, _) := inputs 1 3 7 [8] true; okAnd (rnds 1 3 2 3) fun r => okAnd (pc 2 3 60) fun (p0, p1) => isUb (groupBy 2 40 id { i0 with act := [1, 1] } i1 p0 p1 r)
def same (bits : Nat) : Inp × Inp := (⟨col 107 bits [[5], [5]], [col 97 8 [[1], [2]]], [0, 1]⟩, ⟨col 107 bits [[0], [0]], [col 97 8 [[0], [0]]], [0, 0]⟩)
#eval say "C34_false" <| [2, 4, 5, 6, 8].all fun bits => let (i0, i1) := same bits
  okAnd (rnds 1 2 2 bits) fun r => okAnd (pc 2 2 (permBytes (dataBits i0 (bits + 1)) (bits + 1) false)) fun (p0, p1) =>
    okAnd (groupBy 2 40 id i0 i1 p0 p1 r) fun (t0, t1) => t0.isActive == t1.isActive
#eval say "C34_budget" <| [1, 7, 8, 31].all fun bits => [[], [8], [16, 24], [64, 64, 5]].all fun ws => [1, 8, 9, 40].all fun ck => let (i0, _) := inputs 1 2 bits ws true
  decide (4 + (flagByte i0 ck + 1) + (sumBytes i0 + OmJoin.colBytes i0.key + 1) ≤ 16 * ((permBytes (dataBits i0 ck) ck false + 15) / 16))
#eval say "C34_removed" <| [1, 2, 3].all fun s => let (i0, i1, keys, vs, act) := inputs s 5 7 [8, 16] false
  okAnd (rnds s 5 4 1) fun r => okAnd (pc 2 5 (permBytes (dataBits i0 8) 8 false)) fun (p0, p1) => okAnd (pc 9 5 13) fun (e0, e1) =>
    okAnd (groupByActive 4 40 id i0 i1 p0 p1 e0 e1 r) fun (u0, u1) => u0.isActive == [] && u1.isActive == [] &&
      ((List.range u0.rows).map (rowOf u0 u1)) == ((rperm 9 5).filter (head keys act)).map (expect keys vs [8, 16] act)
#eval say "C34_removed_false" <| let (i0, i1, _) := inputs 1 5 7 [16, 32] false
  okAnd (rnds 1 5 4 1) fun r => okAnd (pc 2 5 (permBytes (dataBits i0 8) 8 true)) fun (p0, p1) => okAnd (pc 9 5 30) fun (e0, e1) =>
    isThrow (groupByActive 4 40 id i0 i1 p0 p1 e0 e1 r)

end SecJoin.Checks.GroupBy
