import Verif.TableOps.GroupEnd
import Verif.TableOps.WhereGmw
import Verif.TableOps.Extract
/-!
# Programs on shared tables

A program is a list of operations, each with the correlations it uses. Every operation reads tables by their place in the list of tables, as in
`Join/EndToEnd.lean`, and its result is a new table at the end of the list. Both parties run in lockstep.
-/
namespace SecJoin
namespace Chain
open EndToEnd (ColRef mkQuery shareMem)
open GroupEnd (mkInp)

/-- An operation. -/
inductive Op where
  /-- `Where::init` for the columns of table `i` and `Where::where` without removal, Where.cpp 39-111. -/
  | filter (i : Nat) (ks : List Nat) (c : Gmw.Circuit) (junk : Nat) (levels : List (List Gmw.Gate)) (E : Gmw.Wires.Env)
  /-- `Extract::apply(input, output)`, Extract.cpp 28-49, the removal that the other operations end with on demand. -/
  | remove (i : Nat) (p0 p1 : ComposedPerm)
  /-- `OmJoin::join`, OmJoin.cpp 485-604, without removal. -/
  | join (l r : ColRef) (sel : List ColRef) (L cs : Nat) (enc : Row → Row) (p0 p1 : ComposedPerm) (G : OmJoin.GmwEnv)
  /-- `GroupBy::groupBy`, GroupBy.cpp 332-441, without removal. -/
  | group (g : ColRef) (avg : List ColRef) (L cs : Nat) (enc : Row → Row) (p0 p1 : ComposedPerm) (G : OmJoin.GmwEnv) (junk0 junk1 : Nat → Nat → Byte)

/-- The result of an operation on the tables of both parties. The filter is set up with rows and columns of party 0's table; a party that sets it up
otherwise is not modelled. -/
def Op.run (m0 m1 : List Table) : Op → Res (Table × Table)
  | .filter i ks c junk levels E => do
    let t0 ← rd m0 i
    let t1 ← rd m1 i
    let w ← WhereT.init junk [] t0.rows t0.getColumnInfo ks c
    WhereT.whereGmw E w levels t0 t1
  | .remove i p0 p1 => do
    let t0 ← rd m0 i
    let t1 ← rd m1 i
    Extract.applyTable t0.rows p0 p1 t0 t1 ⟨[], []⟩ ⟨[], []⟩
  | .join l r sel L cs enc p0 p1 G => do
    let q0 ← mkQuery m0 l r sel
    let q1 ← mkQuery m1 l r sel
    OmJoin.joinGmw L cs enc q0 q1 p0 p1 G
  | .group g avg L cs enc p0 p1 G junk0 junk1 => do
    let i0 ← mkInp m0 g avg
    let i1 ← mkInp m1 g avg
    GroupBy.groupByGmw L cs enc i0 i1 p0 p1 G junk0 junk1

/-- The operations one after the other. -/
def run : List Op → List Table → List Table → Res (List Table × List Table)
  | [], m0, m1 => .ok (m0, m1)
  | o :: os, m0, m1 => do
    let (u0, u1) ← o.run m0 m1
    run os (m0 ++ [u0]) (m1 ++ [u1])

/-- The tables are shared, the program is run and table `k` is revealed without its inactive rows. -/
def program (rnd : Nat → Nat → Nat → Nat → Byte) (rndF : Nat → Nat → Byte) (os : List Op) (k : Nat) (mem : List Table) : Res Table := do
  let (m0, m1) ← shareMem rnd rndF 0 mem
  let (m0, m1) ← run os m0 m1
  let t0 ← rd m0 k
  let t1 ← rd m1 k
  Table.reveal t0 t1 true

end Chain
end SecJoin
