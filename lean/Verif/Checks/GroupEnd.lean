import Verif.Checks.GmwUtil
import Verif.TableOps.GroupEnd
import Verif.Checks.Util
/-! Instances of C81. -/
namespace SecJoin.Checks.GroupEnd
open SecJoin SecJoin.OmJoin SecJoin.EndToEnd SecJoin.GroupEnd SecJoin.GroupBy SecJoin.Checks.GmwUtil

def le (k v : Nat) : Row := (List.range k).map fun i => BitVec.ofNat 8 (v / 256 ^ i)
def val (r : Row) : Nat := r.foldr (fun b a => b.toNat + 256 * a) 0
def at' (mem : List Table) (c : ColRef) (i : Nat) : Row := ((((mem.getD c.tbl ⟨[], []⟩).cols.getD c.col (col 0 0 [])).data.rows).getD i [])
def flags (mem : List Table) (i : Nat) : List Byte := (mem.getD i ⟨[], []⟩).isActive
def rowsOf (mem : List Table) (i : Nat) : Nat := (mem.getD i ⟨[], []⟩).rows
/-- Two other tables and one with keys of a small range in its second column; `all` sets every flag. -/
def tables (s n bits : Nat) (all : Bool) : List Table :=
  let key := fun i => ((List.range ((bits + 7) / 8)).map fun j => BitVec.ofNat 8 (i + i * j) : Row)
  [⟨[], [col 120 8 (mat (s + 3) 2 1 256)]⟩,
   ⟨(List.range n).map fun i => if all || rnd (s + 11 * i) 3 != 0 then 1 else 0,
     [col 97 8 (mat s n 1 256), col 98 bits ((List.range n).map fun i => key (rnd (s + i) 3)), col 99 16 (mat (s + 1) n 2 256), col 100 8 (mat (s + 2) n 1 256)]⟩,
   ⟨[], [col 121 8 (mat (s + 4) 3 1 256)]⟩]
/-- The rows that are expected. -/
def want (mem : List Table) (g : ColRef) (avg : List ColRef) : List (List Row) :=
  let n := rowsOf mem g.tbl; let f := flags mem g.tbl
  let mem' := fun i r => f.getD i 1 == 1 && at' mem g i == at' mem g r
  ((List.range n).filter fun r => f.getD r 1 == 1 && !(List.range r).any fun a => mem' a r).map fun r =>
    let m := (List.range n).filter fun a => mem' a r
    at' mem g r :: (avg.map (fun c => le (at' mem c r).length (m.map fun a => val (at' mem c a)).sum) ++ [le 8 m.length])
def got (t : Table) : List (List Row) := (List.range t.rows).map fun i => t.cols.map fun c => c.data.rows.getD i []
def active (t : Table) : List (List Row) := (List.range t.isActive.length).filter (fun i => t.isActive.getD i 0 == 1) |>.map fun i => t.cols.map fun c => c.data.rows.getD i []
def rand (s i c r j : Nat) : Byte := BitVec.ofNat 8 (rnd (s + i * 1000 + c * 100 + r * 10 + j) 256)
def run (s : Nat) (mem : List Table) (g : ColRef) (avg : List ColRef) (L : Nat) : Res Table := do
  let i ← mkInp mem g avg
  let ck := i.key.info.bits + 1
  let n := rowsOf mem g.tbl
  let (p0, p1) ← pc (s + 3) n (GroupBy.permBytes (dataBits i ck) ck false)
  let G ← genv s n ck L (sizes i).sum (sumOp (sizes i)) .suf .naAnd
  sharedGroupBy (rand s) (fun i j => BitVec.ofNat 8 (rnd (s + 3 * i + j) 256)) L 100 id p0 p1 G (fun i j => BitVec.ofNat 8 (i + j)) (fun i j => BitVec.ofNat 8 (i * j)) mem g avg
def g : ColRef := ⟨1, 1⟩
def avg : List ColRef := [⟨1, 2⟩, ⟨1, 0⟩]
def info (t : Table) : List (List Byte × Nat) := t.getColumnInfo.map fun i => (i.name, i.bits)
def names (bits : Nat) : List (List Byte × Nat) := [([98], (bits + 7) / 8 * 8), ([99], 16), ([97], 8), ([67, 111, 117, 110, 116], 64)]
def groupOk (s n bits L : Nat) : Bool :=
  let mem := tables s n bits false
  okAnd (run s mem g avg L) fun t => got t == want mem g avg && info t == names bits
#eval say "C81_shared" <| groupOk 1 5 7 4 && groupOk 3 2 3 2
def agree (s n bits L : Nat) : Bool :=
  let mem := tables s n bits true
  okAnd (run s mem g avg L) fun t => okAnd (averageMem mem 0 g avg) fun m => let u := m.getD 0 ⟨[], []⟩
    got t == want mem g avg && active u == want mem g avg && info u == names bits
#eval say "C81_agree" <| agree 1 4 7 8
def plain (s n bits dst : Nat) (fl : Bool) : Bool :=
  let mem := tables s n bits true; let mem := if fl then mem else mem.map fun t => { t with isActive := [] }
  okAnd (averageMem mem dst g avg) fun m => let u := m.getD dst ⟨[], []⟩; active u == want mem g avg && info u == names bits
#eval say "C81_plain" <| [1, 2, 3, 4].all fun s => plain s (1 + 3 * s) 7 (s % 3) true && plain s (2 * s) 15 (s % 3) false && plain s 9 8 1 true
/-- The columns given are sorted by the key, everything else is as before. -/
def effect (s n bits dst : Nat) (all : Bool) : Bool :=
  let mem := tables s n bits all; let p := (List.range n).mergeSort fun a b => decide (val (at' mem g a) ≤ val (at' mem g b))
  okAnd (averageMem mem dst g avg) fun m => m.length == 3 && (List.range 3).all fun i => i == dst || (flags m i == flags mem i && (m.getD i ⟨[], []⟩).cols.length == (mem.getD i ⟨[], []⟩).cols.length &&
    (List.range 4).all fun c => (List.range n).all fun r => at' m ⟨i, c⟩ r == if i == 1 && c != 3 then at' mem ⟨i, c⟩ (p.getD r 0) else at' mem ⟨i, c⟩ r)
#eval say "C81_effect" <| [1, 2, 3].all fun s => effect s (3 * s) 7 0 true && effect s (2 * s + 1) 15 2 false
/-- With inactive rows: the group is at its first row and has its flag, the sums are over all rows. -/
def result (s n bits dst : Nat) : Bool :=
  let mem := tables s n bits false; let f := flags mem 1
  okAnd (averageMem mem dst g avg) fun m => let u := m.getD dst ⟨[], []⟩
    u.isActive == ((List.range n).map fun r => if (List.range r).any fun a => at' mem g a == at' mem g r then 0 else f.getD r 0) &&
    active u == ((want (mem.map fun t => { t with isActive := [] }) g avg).zip ((List.range n).filter fun r => !(List.range r).any fun a => at' mem g a == at' mem g r)).filterMap fun (x, r) => if f.getD r 0 == 1 then some x else none
#eval say "C81_result" <| [1, 2, 3, 4, 5].all fun s => result s (2 + 2 * s) 7 (s % 3)
def two (fl : List Byte) (k0 k1 : Byte) : List Table := [⟨fl, [col 107 7 [[k0], [k1]], col 97 8 [[1], [2]], col 98 8 [[65], [66]]]⟩, ⟨[], []⟩]
def both (fl : List Byte) (k0 k1 : Byte) (x y : List (List Row)) : Bool :=
  okAnd (run 1 (two fl k0 k1) ⟨0, 0⟩ [⟨0, 1⟩] 2) fun t => okAnd (averageMem (two fl k0 k1) 0 ⟨0, 0⟩ [⟨0, 1⟩]) fun m => got t == x && active (m.getD 0 ⟨[], []⟩) == y
#eval say "C81_inactive_false" <| both [1, 0] 5 5 [[[5], [1], le 8 1]] [[[5], [3], le 8 2]]
#eval say "C81_lost_false" <| both [0, 1] 5 5 [[[5], [2], le 8 1]] []
#eval say "C81_source_false" <| okAnd (averageMem (two [1, 1] 9 5) 1 ⟨0, 0⟩ [⟨0, 1⟩]) fun m => got (m.getD 0 ⟨[], []⟩) == [[[5], [2], [65]], [[9], [1], [66]]] && m.length == 2
#eval say "C81_refused" <| let mem := tables 1 4 7 true
  isThrow (mkInp mem g [⟨1, 0⟩, ⟨0, 0⟩]) && isThrow (run 1 mem g [⟨0, 0⟩] 2) && isUb (mkInp mem ⟨5, 0⟩ []) && okAnd (mkInp mem g [⟨1, 0⟩, ⟨1, 2⟩]) fun i => i.key.info.name == [98] && i.avg.map (·.info.name) == [[97], [99]] && i.act == [1, 1, 1, 1]
#eval say "C81_no_flags" <| isUb (run 1 ((tables 1 4 7 true).map fun t => { t with isActive := [] }) g avg 2)

end SecJoin.Checks.GroupEnd
