import Verif.Join.OmGmw
import Verif.TableOps.Extract
/-!
# The one-to-many join with the removal of inactive rows
-/
namespace SecJoin
namespace OmJoin

/-- The end of `join`, OmJoin.cpp 607-610: the rows that are not active are removed from the output of the join, which is also
the output table. The removal was set up for the rows of the right table (479); `e0`, `e1` is its generated permutation. -/
def removeInactive (nR : Nat) (e0 e1 : ComposedPerm) (out : Res (Table × Table)) : Res (Table × Table) := do
  let (t0, t1) ← out
  Extract.applyTable nR e0 e1 t0 t1 t0 t1

/-- The bytes per row that `init` asks for, OmJoin.cpp 473-475. -/
def removeBytes (s : List (Bool × Column)) : Nat := 1 + (s.map fun c => divCeil c.2.info.bits 8).sum

/-- `join` after an `init` with `remDummiesFlag`, OmJoin.cpp 485-611. -/
def joinActive (L cs : Nat) (enc : Row → Row) (q0 q1 : Query) (p0 p1 e0 e1 : ComposedPerm) (r : Rnd) : Res (Table × Table) :=
  removeInactive q0.rightKey.data.rows.length e0 e1 (join L cs enc q0 q1 p0 p1 r)

/-- The same with all circuits run by the protocol. -/
def joinActiveGmw (L cs : Nat) (enc : Row → Row) (q0 q1 : Query) (p0 p1 e0 e1 : ComposedPerm) (G : GmwEnv) : Res (Table × Table) :=
  removeInactive q0.rightKey.data.rows.length e0 e1 (joinGmw L cs enc q0 q1 p0 p1 G)

end OmJoin
end SecJoin
