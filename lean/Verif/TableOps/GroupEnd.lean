import Verif.Join.EndToEnd
import Verif.TableOps.GroupByGmw
import Verif.Table.AvgModel
/-!
# Group-by from tables to tables

The tables of a program are a list, see `Join/EndToEnd.lean`.
-/
namespace SecJoin
namespace GroupEnd
open EndToEnd (ColRef shareMem)
open GroupBy (Inp groupByGmw)

/-- The columns and flags a party's group-by works on, GroupBy.cpp 332-374. Columns of another table are refused (108-123); the code does so
after the sort, whose messages are not part of the outcome. -/
def mkInp (mem : List Table) (g : ColRef) (avg : List ColRef) : Res Inp := do
  let t ← rd mem g.tbl
  let key ← g.get mem
  let cols ← mapRes (·.get mem) avg
  throwIf (avg.any fun c => c.tbl != g.tbl)
  .ok ⟨key, cols, t.isActive⟩

/-- The tables are shared, both parties run the group-by on their shares with all circuits evaluated by the protocol, and the result is
revealed without its inactive rows. -/
def sharedGroupBy (rnd : Nat → Nat → Nat → Nat → Byte) (rndF : Nat → Nat → Byte) (L cs : Nat) (enc : Row → Row) (p0 p1 : ComposedPerm)
    (G : OmJoin.GmwEnv) (junk0 junk1 : Nat → Nat → Byte) (mem : List Table) (g : ColRef) (avg : List ColRef) : Res Table := do
  let (m0, m1) ← shareMem rnd rndF 0 mem
  let i0 ← mkInp m0 g avg
  let i1 ← mkInp m1 g avg
  let (t0, t1) ← groupByGmw L cs enc i0 i1 p0 p1 G junk0 junk1
  Table.reveal t0 t1 true

/-- Permuting a column of a table in place, Table.cpp 617-620 and 627-633. -/
def permCol (p : Perm) (mem : List Table) (c : ColRef) : Res (List Table) := do
  let t ← rd mem c.tbl
  let x ← rd t.cols c.col
  let x ← Table.permuteBytes p .regular x
  .ok (mem.set c.tbl { t with cols := t.cols.set c.col x })

/-- The loop over the averaged columns, Table.cpp 627-633. -/
def permCols (p : Perm) : List Table → List ColRef → Res (List Table)
  | mem, [] => .ok mem
  | mem, c :: cs => do
    let mem ← permCol p mem c
    permCols p mem cs

/-- `average(groupByCol, avgCol)` called on table `dst`, Table.cpp 606-736, with its effect on all tables: the columns are permuted in place, the
result replaces the table it is called on. See `Table.average`. -/
def averageMem (mem : List Table) (dst : Nat) (g : ColRef) (avg : List ColRef) : Res (List Table) := do
  let t ← rd mem g.tbl
  let key ← g.get mem
  let p : Perm := ⟨plainSort key.data.rows⟩
  let mem ← permCol p mem g
  let act' ← (if t.isActive.length > 0 then p.applyVec 0 t.isActive .regular else .ok t.isActive : Res (List Byte))
  let mem ← permCols p mem avg
  let key' ← g.get mem
  let avg' ← mapRes (·.get mem) avg
  let n := key.data.rows.length
  let out : Table := ⟨List.replicate n 0, Table.outColumns n key' avg'⟩
  let out ← Table.avgLoop key'.data.rows avg' act' n (Table.acc0 avg') out
  let cols ← mapRes (Table.permuteBytes p .inverse) out.cols
  let fl ← p.applyVec 0 out.isActive .inverse
  .ok (mem.set dst ⟨fl, cols⟩)

end GroupEnd
end SecJoin
