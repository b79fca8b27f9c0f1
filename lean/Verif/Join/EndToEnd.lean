import Verif.Join.OmRemove
import Verif.Table.JoinModel
/-!
# Joins from tables to tables

The tables of a program are a list and a table's place in it is its address: the code compares the addresses of tables, so two
equal tables at different places are different tables.
-/
namespace SecJoin
namespace EndToEnd

/-- `ColRef`, Table.h 137-152: a table and one of its columns. -/
structure ColRef where
  tbl : Nat
  col : Nat
deriving DecidableEq, Repr

/-- The column behind a reference, `Table::operator[](u64)`, Table.h 231-234; without bounds check. -/
def ColRef.get (mem : List Table) (c : ColRef) : Res Column := do
  let t ← rd mem c.tbl
  rd t.cols c.col

/-- The constructor of `JoinQuery`, JoinQuery.h 35-50, with the comparison of addresses that `packForAggTree` (OmJoin.cpp 192),
`getOutput` (249) and the schema (JoinQuery.h 60) make. -/
def mkQuery (mem : List Table) (l r : ColRef) (sel : List ColRef) : Res OmJoin.Query := do
  let lk ← l.get mem
  let rk ← r.get mem
  let cols ← mapRes (·.get mem) sel
  throwIf (sel.any fun c => c.tbl != l.tbl && c.tbl != r.tbl)
  throwIf (lk.info.bits != rk.info.bits)
  .ok ⟨lk, rk, List.zipWith (fun c x => (c.tbl == l.tbl, x)) sel cols⟩

/-- The plaintext `join(l, r, select)`, Table.cpp 738-810, on column references: a selected column is a right one if its table
is that of the right key (797), and refused if it is of neither table (779-781). -/
def plainJoin (mem : List Table) (l r : ColRef) (sel : List ColRef) : Res Table := do
  let lk ← l.get mem
  let rk ← r.get mem
  let cols ← mapRes (·.get mem) sel
  Table.join lk rk (List.zipWith (fun c x => (if c.tbl = r.tbl then .right else if c.tbl = l.tbl then .left else .other, x)) sel cols)

/-- `Table::share` of all tables, from table `i` on; `rnd i` and `rndF i` are the random bytes for columns and flags. -/
def shareMem (rnd : Nat → Nat → Nat → Nat → Byte) (rndF : Nat → Nat → Byte) : Nat → List Table → Res (List Table × List Table)
  | _, [] => .ok ([], [])
  | i, t :: ts => do
    let (a, b) ← Table.share (rnd i) (rndF i) t
    let (as, bs) ← shareMem rnd rndF (i + 1) ts
    .ok (a :: as, b :: bs)

/-- The tables are shared, both parties build the query on their shares and run the join with all circuits evaluated by the
protocol, and the result is revealed without its inactive rows. -/
def sharedJoin (rnd : Nat → Nat → Nat → Nat → Byte) (rndF : Nat → Nat → Byte) (L cs : Nat) (enc : Row → Row) (p0 p1 : ComposedPerm)
    (G : OmJoin.GmwEnv) (mem : List Table) (l r : ColRef) (sel : List ColRef) : Res Table := do
  let (m0, m1) ← shareMem rnd rndF 0 mem
  let q0 ← mkQuery m0 l r sel
  let q1 ← mkQuery m1 l r sel
  let (t0, t1) ← OmJoin.joinGmw L cs enc q0 q1 p0 p1 G
  Table.reveal t0 t1 true

/-- The same with the removal of inactive rows inside the protocol; what is left is revealed as it is. -/
def sharedJoinActive (rnd : Nat → Nat → Nat → Nat → Byte) (rndF : Nat → Nat → Byte) (L cs : Nat) (enc : Row → Row)
    (p0 p1 e0 e1 : ComposedPerm) (G : OmJoin.GmwEnv) (mem : List Table) (l r : ColRef) (sel : List ColRef) : Res Table := do
  let (m0, m1) ← shareMem rnd rndF 0 mem
  let q0 ← mkQuery m0 l r sel
  let q1 ← mkQuery m1 l r sel
  let (t0, t1) ← OmJoin.joinActiveGmw L cs enc q0 q1 p0 p1 e0 e1 G
  Table.reveal t0 t1 false

end EndToEnd
end SecJoin
