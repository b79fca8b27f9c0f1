import Verif.Checks.GmwUtil
import Verif.Join.OmGmw
import Verif.TableOps.GroupByGmw
import Verif.Checks.Util
/-! Instances of C31, C32 and C34 with the circuits evaluated by GMW. -/
namespace SecJoin.Checks.JoinGmw
open SecJoin SecJoin.Agg SecJoin.OmJoin SecJoin.Checks.GmwUtil
open SecJoin.Gmw.Wires (Env Cir Mem)
open SecJoin.Radix (Ot RoundEnv sumBits nodeWire oneHotOps)

/-! ## The join -/
def sh (b nm s n c m : Nat) : Column × Column := let v := mat s n c m; let a := mat (s + 1) n c (2 ^ min 8 b); (col nm b a, col nm b (xm a v))
/-- A join of `nL` rows with distinct keys and `nR` rows, see `Checks/Sort.lean`. -/
def joinOk (s cs nL nR bits L : Nat) : Bool := Id.run do
  let c := (bits + 7) / 8; let cap := 2 ^ min 8 bits
  let lk := ((rperm (s + 5) nL).map fun i => (List.range c).map fun j => BitVec.ofNat 8 (if j == 0 then i else i * j) : List Row)
  let rk := ((List.range nR).map fun i => (List.range c).map fun j => BitVec.ofNat 8 (if j == 0 then rnd (i + s) (nL + 2) % cap else rnd (i + s) (nL + 2) * j) : List Row)
  let m1 := mat (s + 7) nL c cap; let m2 := mat (s + 8) nR c cap
  let (x0, x1) := sh 12 99 (s + 20) nL 2 256; let (y0, y1) := sh 8 100 (s + 30) nR 1 256; let (z0, z1) := sh 24 101 (s + 40) nL 3 256
  let q0 : Query := ⟨col 97 bits m1, col 98 bits m2, [(true, x0), (false, y0), (true, z0)]⟩
  let q1 : Query := ⟨col 97 bits (xm m1 lk), col 98 bits (xm m2 rk), [(true, x1), (false, y1), (true, z1)]⟩
  let n := nL + nR; let B := 4 + dataBytes q0.select bits + (flagByte q0.select + 1); let wd := 8 * dataBytes q0.select bits
  let r := okAnd (pc (s + 3) n B) fun (p0, p1) => okAnd (genv s n (min bits cs) L wd (dupOp wd) .pre .and) fun G =>
    okAnd (joinGmw L cs (fun r => r.map (· ^^^ 0)) q0 q1 p0 p1 G) fun (t0, t1) =>
      t0.isActive.length == nR && t1.isActive.length == nR && t0.cols.length == 3 && t1.cols.length == 3 && t0.cols.getD 1 x0 == y0 && t1.cols.getD 1 x0 == y1 &&
      (t0.cols.map (·.info)) == [x0.info, y0.info, z0.info] && (List.range nR).all fun i =>
        let f := (t0.isActive.getD i 0 ^^^ t1.isActive.getD i 0); let row := List.zipWith (fun (a b : Column) => List.zipWith (· ^^^ ·) (a.data.rows.getD i []) (b.data.rows.getD i [])) t0.cols t1.cols
        let pickR (a b : Column) (k : Nat) := List.zipWith (· ^^^ ·) (a.data.rows.getD k []) (b.data.rows.getD k [])
        if lk.contains (rk.getD i []) then let k := lk.idxOf (rk.getD i []); f == 1 && row.getD 0 [] == pickR x0 x1 k && row.getD 2 [] == pickR z0 z1 k
        else f == 0 && row.getD 0 [] == [0, 0] && row.getD 2 [] == [0, 0, 0]
  return r
#eval say "C32_gmw" <| joinOk 1 100 3 4 8 4 && joinOk 2 100 2 3 16 4 && joinOk 3 100 4 2 4 2 && joinOk 4 100 1 1 2 2
#eval say "C32_gmw_encoded" <| joinOk 5 8 3 4 8 4

/-- Control bits of random keys of one byte each. -/
def ctrlOk (s n bits : Nat) : Bool :=
  let x := mat s n ((bits + 7) / 8) 3; let y := mat (s + 1) n ((bits + 7) / 8) 256
  okAnd (ctrlGmw (env s n (ctrl bits)) (ctrl bits) n bits (xm x y) y) fun (c0, c1) => c0.length == n && c1.length == n &&
    (List.range n).all fun i => (c0.getD i 9 ^^^ c1.getD i 9) == if i != 0 && x.getD i [] == x.getD (i - 1) [] then 1 else 0
#eval say "C31_gmw" <| (List.range 6).all (fun s => ctrlOk s (2 + 3 * s) 8) && ctrlOk 7 5 16 && ctrlOk 8 1 8 && ctrlOk 9 6 2 && ctrlOk 9 130 8
/-- The keys are all zero: only the first row starts a group. -/
def zeroKeys (n : Nat) : Bool := let y := mat 4 n 1 256
  okAnd (ctrlGmw (env 1 n (ctrl 8)) (ctrl 8) n 8 y y) fun (c0, c1) => (List.range n).all fun i => (c0.getD i 9 ^^^ c1.getD i 9) == if i == 0 then 0 else 1
#eval say "C31_gmw_zero" <| [1, 2, 7].all zeroKeys
#eval say "C31_gmw_no_rows" <| isThrow (ctrlGmw (env 1 0 (ctrl 8)) (ctrl 8) 0 8 [] []) && isThrow (ctrlGmw (env 1 1 (ctrl 8)) (ctrl 8) 1 8 [[1]] []) && isThrow (ctrlGmw (env 1 1 (ctrl 8)) (ctrl 8) 1 8 [] [[1]])

/-! ## Group-by -/
open SecJoin.GroupBy (Inp groupByGmw groupByActiveGmw dataBits sizes)
def val (r : Row) : Nat := ((List.range r.length).map fun i => (r.getD i 0).toNat * 256 ^ i).sum
def le (k v : Nat) : Row := (List.range k).map fun i => BitVec.ofNat 8 (v / 256 ^ i)
def rowOf (t0 t1 : Table) (i : Nat) : List Row := List.zipWith (fun (a b : Column) => List.zipWith (· ^^^ ·) (a.data.rows.getD i []) (b.data.rows.getD i [])) t0.cols t1.cols
/-- See `Checks/GroupBy.lean`. -/
def inputs (s n bits : Nat) (ws : List Nat) : Inp × Inp × List Row × List (List Row) × List Nat :=
  let c := (bits + 7) / 8
  let keys := (List.range n).map fun i => let k := rnd (s + i) 3; (List.range c).map fun j => BitVec.ofNat 8 ((k * 37 + j * k) % (if j + 1 == c then 2 ^ (bits - 8 * (c - 1)) else 256))
  let vs := ws.zipIdx.map fun (w, q) => mat (s + 40 + q) n ((w + 7) / 8) 256
  let act := (List.range n).map fun i => rnd (s * 13 + i) 2
  let mk := mat (s + 3) n c 256
  let ma := ws.zipIdx.map fun (w, q) => mat (s + 70 + q) n ((w + 7) / 8) 256
  let fa := (List.range n).map fun i => rnd (s * 17 + i) 2
  (⟨col 107 bits mk, (ws.zip ma).zipIdx.map fun ((w, m), q) => col (97 + q) w m, fa.map (BitVec.ofNat 8)⟩,
   ⟨col 107 bits (xm mk keys), (ws.zip (List.zipWith xm ma vs)).zipIdx.map fun ((w, m), q) => col (97 + q) w m, List.zipWith (fun a b => BitVec.ofNat 8 (a ^^^ b)) fa act⟩,
   keys, vs, act)
def head (keys : List Row) (act : List Nat) (i : Nat) : Bool := act.getD i 0 == 1 && (List.range i).all fun a => !(act.getD a 0 == 1 && keys.getD a [] == keys.getD i [])
def expect (keys : List Row) (vs : List (List Row)) (ws act : List Nat) (i : Nat) : List Row :=
  let g := (List.range keys.length).filter fun a => act.getD a 0 == 1 && keys.getD a [] == keys.getD i []
  keys.getD i [] :: (List.zipWith (fun v w => le (w / 8) (g.map fun a => val (v.getD a [])).sum) vs ws ++ [le 8 g.length])
def gen (s n ck L : Nat) (i : Inp) : Res GmwEnv := genv s n ck L (sizes i).sum (sumOp (sizes i)) .suf .naAnd
def groupOk (s n bits L cs : Nat) (ws : List Nat) : Bool :=
  let (i0, i1, keys, vs, act) := inputs s n bits ws
  let ck := min cs (bits + 1)
  okAnd (gen s n ck L i0) fun G => okAnd (pc (s + 2) n (GroupBy.permBytes (dataBits i0 ck) ck false)) fun (p0, p1) =>
    okAnd (groupByGmw L cs (fun r => r.map (· * 3)) i0 i1 p0 p1 G (fun i j => BitVec.ofNat 8 (i + j)) fun i j => BitVec.ofNat 8 (i * j)) fun (t0, t1) => t0.isActive.length == n && t1.isActive.length == n &&
      t0.getColumnInfo.map (fun c => (c.name, c.bits)) == (i0.key :: i0.avg).map (fun c => (c.info.name, 8 * ((c.info.bits + 7) / 8))) ++ [("Count".toUTF8.toList.map (·.toBitVec), 64)] &&
      (t0.cols ++ t1.cols).all (fun c => c.data.bits == c.info.bits && c.data.cols == c.info.bits / 8 && c.data.rows.length == n && c.data.rows.all (·.length == c.data.cols)) &&
      (List.range n).all fun i => (t0.isActive.getD i 9 ^^^ t1.isActive.getD i 9) == (if head keys act i then 1 else 0) &&
        (!head keys act i || rowOf t0 t1 i == expect keys vs ws act i)
#eval say "C34_gmw" <| groupOk 1 4 7 4 40 [8] && groupOk 2 5 7 4 40 [16, 8] && groupOk 3 3 3 2 40 [] && groupOk 6 5 7 4 8 [24]
#eval say "C34_gmw_removed" <| [1, 2].all fun s => let (i0, i1, keys, vs, act) := inputs s 5 7 [8]
  okAnd (gen s 5 8 4 i0) fun G => okAnd (pc 2 5 (GroupBy.permBytes (dataBits i0 8) 8 false)) fun (p0, p1) => okAnd (pc 9 5 13) fun (e0, e1) =>
    okAnd (groupByActiveGmw 4 40 id i0 i1 p0 p1 e0 e1 G (fun _ _ => 1) fun _ _ => 0) fun (u0, u1) => u0.isActive == [] && u1.isActive == [] &&
      ((List.range u0.rows).map (rowOf u0 u1)) == ((rperm 9 5).filter (head keys act)).map (expect keys vs [8] act)
end SecJoin.Checks.JoinGmw
