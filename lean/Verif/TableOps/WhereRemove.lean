import Verif.TableOps.Where
import Verif.TableOps.Extract
/-!
# The filter with removal of the inactive rows (`secure-join/TableOps/Where.cpp`)
-/
namespace SecJoin
namespace WhereT

open Gmw

/-- The bytes per row that `init` asks the removal for, Where.cpp 67-69: one for the flag and those of the first columns, as
many as the predicate has inputs. More inputs than columns are an access out of bounds. -/
def removeBytes (columns : List ColumnInfo) (whereInputs : List Nat) : Res Nat :=
  if whereInputs.length ≤ columns.length then .ok (1 + Extract.infoBytes (columns.take whereInputs.length)) else .error .ub

/-- `init(rows, columns, whereInputs, cir, ole, true)`, Where.cpp 39-73: the filter and the bytes per row of the removal. -/
def initRemove (junk : Nat) (old : List ColumnInfo) (rows : Nat) (columns : List ColumnInfo) (whereInputs : List Nat) (c : Circuit) :
    Res (Where × Nat) := do
  let w ← init junk old rows columns whereInputs c
  let b ← removeBytes columns whereInputs
  .ok (w, b)

/-- `where(input, output)` after `initRemove`, Where.cpp 75-111, of both parties: the output of the filter is input and
output of the removal, lines 107-110. `p0`, `p1` is the permutation that is generated for it. -/
def whereRemove (w : Where) (t0 t1 : Table) (v : Nat → Nat → Bool) (r : Nat → Bool) (p0 p1 : ComposedPerm) : Res (Table × Table) := do
  let (u0, u1) ← whereBoth w t0 t1 v r
  Extract.applyTable w.rows p0 p1 u0 u1 u0 u1

end WhereT
end SecJoin
