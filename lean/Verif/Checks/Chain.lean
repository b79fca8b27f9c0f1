import Verif.Checks.GmwUtil
import Verif.TableOps.Chain
import Verif.Checks.Util
/-! Instances of C82. -/
namespace SecJoin.Checks.Chain
open SecJoin SecJoin.OmJoin SecJoin.EndToEnd SecJoin.GroupEnd SecJoin.GroupBy SecJoin.Chain SecJoin.Checks.GmwUtil

def le (k v : Nat) : Row := (List.range k).map fun i => BitVec.ofNat 8 (v / 256 ^ i)
def got (t : Table) : List (List Nat) := (List.range t.rows).map fun i => t.cols.map fun c => (c.data.rows.getD i []).foldr (fun b a => b.toNat + 256 * a) 0
def sorted (x : List (List Nat)) : List (List Nat) := x.mergeSort fun a b => decide (a ≤ b)
def rand (s i c r j : Nat) : Byte := BitVec.ofNat 8 (rnd (s + i * 1000 + c * 100 + r * 10 + j) 256)
def randF (s i j : Nat) : Byte := BitVec.ofNat 8 (rnd (s + 3 * i + j) 256)
def demo : Gmw.Circuit := ⟨[[0, 1], [2]], [[3]], 5, [⟨0, 1, 4, .and⟩, ⟨4, 2, 3, .xor⟩], fun _ => .plain⟩
/-- Number, department and salary of person `i`; key, mark and flag of visit `i`. -/
def person (s i : Nat) : Nat × Nat × Nat := ((rperm s 3).getD i 0, 4 + rnd (s + i) 2, rnd (s + 7 * i) 100)
def visit (s i : Nat) : Nat × Nat × Nat := (rnd (s + 5 * i) 4, rnd (s + 3 * i + 1) 2, if rnd (s + 11 * i) 4 == 0 then 0 else 1)
def sat (v : Nat × Nat × Nat) : Bool := v.2.2 == 1 && (v.2.1 == 1) != (v.1 == 3)
def people (s : Nat) : Table := let p := (List.range 3).map (person s)
  ⟨[], [col 105 2 (p.map fun x => le 1 x.1), col 100 3 (p.map fun x => le 1 x.2.1), col 115 8 (p.map fun x => le 1 x.2.2)]⟩
def visits (s n : Nat) : Table := let v := (List.range n).map (visit s)
  ⟨v.map fun x => BitVec.ofNat 8 x.2.2, [col 107 2 (v.map fun x => le 1 x.1), col 118 1 (v.map fun x => le 1 x.2.1)]⟩
/-- The operations with their correlations, for tables of the same shape as those they run on. -/
def filterOp (s i n : Nat) (t : Table) : Res Op := do
  let w ← WhereT.init 7 [] n t.getColumnInfo [0, 1] demo
  let lv := w.clause.gates.map fun g => [g]
  .ok (.filter i [0, 1] demo 7 lv (env s n ⟨w.clause.wireCount, w.clause.inputs, w.clause.outputs, lv⟩))
def removeOp (s i n bytes : Nat) : Res Op := do
  let (p0, p1) ← pc s n (1 + bytes)
  .ok (.remove i p0 p1)
def joinOp (s nL nR bits : Nat) (l r : ColRef) (sel : List ColRef) (cols : List (Bool × Column)) : Res Op := do
  let (p0, p1) ← pc (s + 3) (nL + nR) (4 + dataBytes cols bits + (flagByte cols + 1))
  let G ← genv s (nL + nR) bits 2 (8 * dataBytes cols bits) (dupOp (8 * dataBytes cols bits)) .pre .and
  .ok (.join l r sel 2 100 id p0 p1 G)
def groupOp (s n : Nat) (g : ColRef) (avg : List ColRef) (i : Inp) : Res Op := do
  let ck := i.key.info.bits + 1
  let (p0, p1) ← pc (s + 3) n (GroupBy.permBytes (dataBits i ck) ck false)
  let G ← genv s n ck 2 (sizes i).sum (sumOp (sizes i)) .suf .naAnd
  .ok (.group g avg 2 100 id p0 p1 G (fun i j => BitVec.ofNat 8 (i + j)) (fun i j => BitVec.ofNat 8 (i * j)))
def kept (s n : Nat) : List (Nat × Nat × Nat) := ((List.range n).map (visit s)).filter sat
/-- Department, salary and mark of the visitors. -/
def joined (s : Nat) (vs : List (Nat × Nat × Nat)) : List (List Nat) :=
  vs.flatMap fun v => (((List.range 3).map (person s)).filter fun p => p.1 == v.1).map fun p => [p.2.1, p.2.2, v.2.1]
def sums (rows : List (List Nat)) : List (List Nat) := [4, 5].flatMap fun d => let m := rows.filter fun r => r.getD 0 0 == d
  if m.isEmpty then [] else [[d, (m.map fun r => r.getD 1 0).sum % 256, m.length]]
def J : List (Bool × Column) := [(true, col 100 3 []), (true, col 115 8 []), (false, col 118 1 [])]
def ops (s n : Nat) : Res (List Op) := do
  let k := (kept s n).length
  let a ← filterOp s 1 n (visits s n)
  let b ← removeOp (s + 1) 2 n 2
  let c ← joinOp s 3 k 2 ⟨0, 0⟩ ⟨3, 0⟩ [⟨0, 1⟩, ⟨0, 2⟩, ⟨3, 1⟩] J
  let d ← groupOp s k ⟨4, 0⟩ [⟨4, 1⟩] ⟨col 100 3 [], [col 115 8 []], []⟩
  .ok [a, b, c, d]
def prog (s : Nat) (os : Res (List Op)) (k : Nat) (mem : List Table) : Res Table := do
  let os ← os
  program (rand s) (randF s) os k mem
/-- All tables after the program. -/
def all (s : Nat) (os : Res (List Op)) (mem : List Table) : Res (List Table) := do
  let os ← os
  let (m0, m1) ← shareMem (rand s) (randF s) 0 mem
  let (m0, m1) ← Chain.run os m0 m1
  mapRes (fun (a, b) => Table.reveal a b true) (m0.zip m1)
def nth (l : List Table) (k : Nat) : Table := l.getD k ⟨[], []⟩
def chainOk (s n : Nat) : Bool :=
  let mem := [people s, visits s n]; let vs := kept s n
  vs.length ≥ 2 && okAnd (all s (ops s n) mem) fun ts => got (nth ts 2) == (vs.map fun v => [v.1, v.2.1]) && sorted (got (nth ts 3)) == sorted (vs.map fun v => [v.1, v.2.1]) &&
    sorted (got (nth ts 4)) == sorted (joined s vs) && (nth ts 4).getColumnInfo.map (·.bits) == [3, 8, 1] &&
    sorted (got (nth ts 5)) == sorted (sums (joined s vs)) && (nth ts 5).getColumnInfo.map (·.bits) == [8, 8, 64] && ts.length == 6 &&
    got (nth ts 1) == (((List.range n).map (visit s)).filter fun v => v.2.2 == 1).map fun v => [v.1, v.2.1]
def seeds (n : Nat) : List Nat := (List.range 40).filter fun s => (kept s n).length ≥ 2 && (kept s n).length < n && (joined s (kept s n)).length ≥ 2
#eval say "C82_chain" <| (seeds 4).length ≥ 2 && ((seeds 4).take 1).all fun s => chainOk s 4
/-- A filter and a group-by of the marks, then a filter of the filtered table. -/
def grouped (s n : Nat) : Bool :=
  let mem := [people s, visits s n]; let vs := kept s n; let os : Res (List Op) := do
    let a ← filterOp s 1 n (visits s n)
    let b ← groupOp s n ⟨2, 1⟩ [] ⟨col 118 1 [], [], []⟩
    let c ← filterOp (s + 3) 2 n (visits s n)
    .ok [a, b, c]
  okAnd (all s os mem) fun ts => sorted (got (nth ts 3)) == sorted ([0, 1].flatMap fun m => let x := vs.filter fun v => v.2.1 == m; if x.isEmpty then [] else [[m, x.length]]) &&
    got (nth ts 4) == (vs.map fun v => [v.1, v.2.1]) && got (nth ts 2) == vs.map fun v => [v.1, v.2.1]
#eval say "C82_chain_group" <| ((seeds 3).drop 1 |>.take 1).all fun s => grouped s 3
def K : List (Bool × Column) := [(true, col 115 8 []), (false, col 107 2 [])]
/-- The join of the filtered visits shows all of them. -/
def filterJoin (s n : Nat) : Bool :=
  let mem := [people s, visits s n]; let os : Res (List Op) := do
    let a ← filterOp s 1 n (visits s n)
    let c ← joinOp s 3 n 2 ⟨0, 0⟩ ⟨2, 0⟩ [⟨0, 2⟩, ⟨2, 0⟩] K
    .ok [a, c]
  let all := ((List.range n).map (visit s)).flatMap fun v => (((List.range 3).map (person s)).filter fun p => p.1 == v.1).map fun p => [p.2.2, v.1]
  okAnd (prog s os 3 mem) (fun t => got t == all)
#eval say "C82_filter_join_false" <| ((seeds 3).take 1).all fun s => filterJoin s 3
#eval say "C82_remove_group_false" <| [1, 2, 3].all fun s =>
  isUb (prog s (do let a ← removeOp s 1 4 2; let b ← groupOp s 2 ⟨2, 1⟩ [] ⟨col 118 1 [], [], []⟩; .ok [a, b]) 3 [people s, { visits s 4 with isActive := [1, 0, 1, 0] }])
#eval say "C82_query" <| ((seeds 3).drop 1 |>.take 1).all fun s => okAnd (prog s ((ops s 3).map (·.take 3)) 4 [people s, visits s 3]) fun t => sorted (got t) == sorted (joined s (kept s 3))

end SecJoin.Checks.Chain
