import Verif.Checks.GmwUtil
import Verif.Join.EndToEnd
import Verif.Checks.Util
/-! Instances of C79. -/
namespace SecJoin.Checks.EndToEnd
open SecJoin SecJoin.OmJoin SecJoin.EndToEnd SecJoin.Checks.GmwUtil

def bytes (s n c : Nat) : List Row := mat s n c 256
/-- Left keys distinct, right keys of a small range, further columns random. -/
def tables (s nL nR bits : Nat) : List Table :=
  let c := (bits + 7) / 8
  let key := fun i => ((List.range c).map fun j => BitVec.ofNat 8 (i + i * j) : Row)
  [⟨[], [col 97 8 (bytes s nL 1), col 98 bits ((rperm (s + 5) nL).map key), col 99 16 (bytes (s + 1) nL 2)]⟩,
   ⟨[], [col 120 8 (bytes (s + 3) 2 1)]⟩,
   ⟨[], [col 100 bits ((List.range nR).map fun i => key (rnd (s + i) (nL + 2) % 2 ^ min 8 bits)), col 101 8 (bytes (s + 2) nR 1)]⟩]
def at' (mem : List Table) (c : ColRef) (i : Nat) : Row := ((((mem.getD c.tbl ⟨[], []⟩).cols.getD c.col (col 0 0 [])).data.rows).getD i [])
def rowsOf (mem : List Table) (i : Nat) : Nat := (mem.getD i ⟨[], []⟩).rows
/-- The expected rows, `left` says which columns are taken from the left row. -/
def want (mem : List Table) (l r : ColRef) (sel : List ColRef) (left : ColRef → Bool) : List (List Row) :=
  (List.range (rowsOf mem r.tbl)).flatMap fun b => ((List.range (rowsOf mem l.tbl)).filter fun a => at' mem l a == at' mem r b).take 1 |>.map fun a =>
    sel.map fun c => at' mem c (if left c then a else b)
def got (t : Table) : List (List Row) := (List.range t.rows).map fun i => t.cols.map fun c => c.data.rows.getD i []
def active (t : Table) : List (List Row) := (List.range t.isActive.length).filter (fun i => t.isActive.getD i 0 == 1) |>.map fun i => t.cols.map fun c => c.data.rows.getD i []
def sorted (x : List (List Row)) : List (List Nat) := (x.map fun r => r.flatten.map (·.toNat)).mergeSort fun a b => decide (a ≤ b)
def rand (s i c r j : Nat) : Byte := BitVec.ofNat 8 (rnd (s + i * 1000 + c * 100 + r * 10 + j) 256)
/-- Both shared joins of the given tables, or `none` if one of them fails. -/
def run (s : Nat) (mem : List Table) (l r : ColRef) (sel : List ColRef) (bits L : Nat) : Res (Table × Table) := do
  let q ← mkQuery mem l r sel
  let n := rowsOf mem l.tbl + rowsOf mem r.tbl; let wd := 8 * dataBytes q.select bits
  let (p0, p1) ← pc (s + 3) n (4 + dataBytes q.select bits + (flagByte q.select + 1))
  let (e0, e1) ← pc (s + 6) (rowsOf mem r.tbl) (removeBytes q.select)
  let G ← genv s n bits L wd (dupOp wd) .pre .and
  let a ← sharedJoin (rand s) (fun i j => BitVec.ofNat 8 (i + j)) L 100 id p0 p1 G mem l r sel
  let b ← sharedJoinActive (rand s) (fun i j => BitVec.ofNat 8 (i + j)) L 100 id p0 p1 e0 e1 G mem l r sel
  .ok (a, b)
def l : ColRef := ⟨0, 1⟩
def r : ColRef := ⟨2, 0⟩
def sel : List ColRef := [⟨0, 2⟩, ⟨2, 1⟩, ⟨0, 1⟩]
def joinOk (s nL nR bits L : Nat) : Bool :=
  let mem := tables s nL nR bits; let w := want mem l r sel (·.tbl == 0)
  okAnd (run s mem l r sel bits L) fun (a, b) => okAnd (plainJoin mem l r sel) fun t =>
    got a == w && sorted (got b) == sorted w && sorted (active t) == sorted w &&
    [a, b, t].all fun x => x.getColumnInfo.map (fun i => (i.name, i.bits)) == [([99], 16), ([101], 8), ([98], bits)]
#eval say "C79_join" <| joinOk 1 3 4 8 4 && joinOk 2 2 3 16 8 && joinOk 3 4 2 4 2 && joinOk 4 1 1 2 2 && joinOk 5 2 6 8 8
/-- Columns of the right table only, and the left key of another column order. -/
def rightOnly (s : Nat) : Bool :=
  let mem := tables s 3 4 8; let w := want mem l r [⟨2, 1⟩] fun _ => false
  okAnd (run s mem l r [⟨2, 1⟩] 8 4) fun (a, b) => okAnd (plainJoin mem l r [⟨2, 1⟩]) fun t => got a == w && sorted (got b) == sorted w && sorted (active t) == sorted w
#eval say "C79_right_only" <| [1, 2, 3].all rightOnly
/-- The roles of the tables exchanged. -/
def other (s : Nat) : Bool :=
  let mem := (tables s 3 4 8).reverse; let l : ColRef := ⟨2, 1⟩; let r : ColRef := ⟨0, 0⟩; let sel : List ColRef := [⟨0, 1⟩, ⟨2, 0⟩]
  let w := want mem l r sel (·.tbl == 2)
  okAnd (run s mem l r sel 8 4) fun (a, b) => okAnd (plainJoin mem l r sel) fun t => got a == w && sorted (got b) == sorted w && sorted (active t) == sorted w
#eval say "C79_other_order" <| [1, 2].all other
def dup : List Table := [⟨[], [col 97 8 [[5], [7], [5]], col 98 8 [[1], [2], [3]]]⟩, ⟨[], [col 99 8 [[9], [5]], col 100 8 [[10], [11]]]⟩]
#eval say "C79_duplicates" <| isThrow (plainJoin dup ⟨0, 0⟩ ⟨1, 0⟩ [⟨0, 1⟩]) && okAnd (run 1 dup ⟨0, 0⟩ ⟨1, 0⟩ [⟨0, 1⟩, ⟨1, 1⟩] 8 4) fun (a, b) => got a == [[[1], [11]]] && got b == [[[1], [11]]]
#eval say "C79_refused" <| let mem := tables 1 3 4 8
  isThrow (mkQuery mem l r [⟨0, 0⟩, ⟨1, 0⟩]) && isThrow (plainJoin mem l r [⟨0, 0⟩, ⟨1, 0⟩]) && isThrow (mkQuery mem ⟨0, 2⟩ r [⟨0, 0⟩]) && isThrow (plainJoin mem ⟨0, 2⟩ r [⟨0, 0⟩]) &&
  okAnd (mkQuery mem l r [⟨0, 0⟩, ⟨2, 1⟩]) fun q => q.select.map (·.1) == [true, false] && q.leftKey.info.name == [98] && q.rightKey.info.name == [100]
def staff : List Table := [⟨[], [col 105 8 [[6], [1], [9]], col 109 8 [[1], [1], [6]], col 110 8 [[65], [66], [67]]]⟩]
#eval say "C79_self" <| okAnd (run 3 staff ⟨0, 0⟩ ⟨0, 1⟩ [⟨0, 2⟩] 8 4) fun (a, b) => got a == [[[66]], [[66]], [[65]]] && sorted (got b) == [[65], [66], [66]] &&
  okAnd (plainJoin staff ⟨0, 0⟩ ⟨0, 1⟩ [⟨0, 2⟩]) fun t => sorted (active t) == [[65], [66], [67]]
/-- Sixteen bytes of columns and the flag need a second block of the removal's correlation. -/
def wide (s : Nat) : Bool :=
  let mem : List Table := [⟨[], [col 97 8 [[5], [7]], col 98 64 (bytes s 2 8)]⟩, ⟨[], [col 99 8 [[7], [9], [5]], col 100 64 (bytes (s + 1) 3 8)]⟩]
  let w := want mem ⟨0, 0⟩ ⟨1, 0⟩ [⟨0, 1⟩, ⟨1, 1⟩] (·.tbl == 0)
  okAnd (run s mem ⟨0, 0⟩ ⟨1, 0⟩ [⟨0, 1⟩, ⟨1, 1⟩] 8 4) fun (a, b) => got a == w && sorted (got b) == sorted w
#eval say "C79_budget" <| wide 1
/-- Sharing splits every table. -/
def shareOk (s : Nat) : Bool := let mem := tables s 3 4 8
  okAnd (shareMem (rand s) (fun _ _ => 3) 0 mem) fun (a, b) => a.length == 3 && b.length == 3 && (List.range 3).all fun i => (List.range 3).all fun c => (List.range 4).all fun k =>
    List.zipWith (· ^^^ ·) (at' a ⟨i, c⟩ k) (at' b ⟨i, c⟩ k) == at' mem ⟨i, c⟩ k
#eval say "C79_share" <| [1, 2].all shareOk
end SecJoin.Checks.EndToEnd
