import Verif.TableOps.Chain
import Verif.TableOps.GroupEndSpec
/-!
# Specification of programs on shared tables

For every operation the active rows of its result in terms of the active rows of the tables it reads, on plaintext tables.
-/
namespace SecJoin
namespace Chain
open EndToEnd (ColRef cell)
open GroupBy (Inp)

/-- A row is active if its flag is one; without flags all rows are. -/
def on (t : Table) (r : Nat) : Bool := t.isActive.isEmpty || t.isActive.getD r 0 == 1

/-- The active rows by number. -/
def live (t : Table) : List Nat := (List.range t.rows).filter (on t)

/-- The active rows. -/
def content (t : Table) : List (List (Option Row)) := (live t).map t.rowAt

/-- The predicate holds in row `r`: the circuit gives true on the bits of the cells. -/
def sat (c : Gmw.Circuit) (t : Table) (r : Nat) : Bool :=
  c.eval (t.cols.map fun x => (List.range x.info.bits).map (bitOf (x.data.rows.getD r []))) (fun _ => false) == [[true]]

/-- The pairs of an active left and an active right row with the same key: for each right row the first left row. -/
def livePairs (mem : List Table) (l r : ColRef) (tl tr : Table) : List (Nat × Nat) :=
  (live tr).filterMap fun b => ((live tl).find? fun a => cell mem l a == cell mem r b).map fun a => (a, b)

/-- `u` is the result of an operation on the tables `mem`. -/
def Effect (mem : List Table) (u : Table) : Op → Prop
  | .filter i _ c _ _ _ => ∃ t, mem[i]? = some t ∧ u.cols = t.cols ∧ u.isActive.length = u.rows ∧ live u = (live t).filter (sat c t)
  | .remove i _ _ => ∃ t, mem[i]? = some t ∧ u.getColumnInfo = t.getColumnInfo ∧ u.isActive = [] ∧ (content u).Perm (content t)
  | .join l r sel _ _ _ _ _ _ => ∃ tl tr, mem[l.tbl]? = some tl ∧ mem[r.tbl]? = some tr ∧
      u.getColumnInfo.map some = sel.map (fun c => (mem[c.tbl]?.bind fun t => t.cols[c.col]?).map (·.info)) ∧
      u.rows = tr.rows ∧ u.isActive.length = u.rows ∧
      content u = (livePairs mem l r tl tr).map fun p => sel.map fun c => cell mem c (if c.tbl = l.tbl then p.1 else p.2)
  | .group g avg _ _ _ _ _ _ _ _ => ∃ (i : Inp) (t : Table), mem[g.tbl]? = some t ∧ t.cols[g.col]? = some i.key ∧
      i.avg.map some = avg.map (fun c => t.cols[c.col]?) ∧ i.act = t.isActive ∧
      u.getColumnInfo = GroupEnd.infos i ∧ u.rows = t.rows ∧ u.isActive.length = u.rows ∧ content u = GroupEnd.grouped i

/-- The tables after the program: each operation has its effect. -/
inductive Effects : List Op → List Table → List Table → Prop
  | nil (mem : List Table) : Effects [] mem mem
  | cons {o : Op} {os : List Op} {mem mem' : List Table} {u : Table} (h : Effect mem u o) (hs : Effects os (mem ++ [u]) mem') : Effects (o :: os) mem mem'

end Chain
end SecJoin
