import Verif.Join.EndToEnd
import Verif.Table.Props
/-!
# Specification of joins from tables to tables

Neither of the two joins is used here.
-/
namespace SecJoin
namespace EndToEnd

/-- The rows of the table at an address. -/
def numRows (mem : List Table) (i : Nat) : Nat := (mem[i]?.map Table.rows).getD 0

/-- Row `i` of a column. -/
def cell (mem : List Table) (c : ColRef) (i : Nat) : Option Row := do
  let t ← mem[c.tbl]?
  let x ← t.cols[c.col]?
  x.data.rows[i]?

/-- The pairs of a left and a right row with the same key: for each right row the first left row. -/
def pairs (mem : List Table) (l r : ColRef) : List (Nat × Nat) :=
  (List.range (numRows mem r.tbl)).filterMap fun b =>
    ((List.range (numRows mem l.tbl)).find? fun a => cell mem l a == cell mem r b).map fun a => (a, b)

/-- All rows of a table. -/
def tableRows (t : Table) : List (List (Option Row)) := (List.range t.rows).map t.rowAt

/-- The rows of a table whose flag is one. -/
def activeRows (t : Table) : List (List (Option Row)) :=
  ((List.range t.isActive.length).filter fun i => t.isActive.getD i 0 == 1).map t.rowAt

end EndToEnd
end SecJoin
