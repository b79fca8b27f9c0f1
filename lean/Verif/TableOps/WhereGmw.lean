import Verif.TableOps.Where
import Verif.GMW.Call
/-!
# The filter with the evaluation of its circuit

`Where.lean` takes the new flags from the functionality of GMW. Here both parties set the inputs, run the protocol on them and read the
flags.
-/
namespace SecJoin
namespace WhereT
open Gmw.Wires (Env Cir setRun getOutput Op)

/-- The calls that set the columns, Where.cpp 93-94. -/
def colOps (t : Table) : List Nat → Nat → Res (List Op)
  | [], _ => .ok []
  | c :: cs, i => do
    let x ← rd t.cols c
    let r ← colOps t cs (i + 1)
    .ok (.setInput i x.data.rows x.data.cols 1 :: r)

/-- The part of `where` of one party up to the run, Where.cpp 81-94: the checks and the calls that set the inputs, that of the flags first.
Where a call fails and a later column does not exist, the outcome here is that of the column. -/
def setOps (w : Where) (t : Table) : Res (List Op) := do
  throwIf (t.cols.length != w.columns.length)
  throwIf (t.rows != w.rows)
  throwIf (t.cols.map (·.info) != w.columns)
  let r ← colOps t w.whereInputs 0
  .ok (.setInput w.whereInputs.length (t.isActive.map fun b => [b]) 1 1 :: r)

/-- The byte with the given bits. -/
def toByte (f : Nat → Bool) : Byte := (BitVec.ofBoolListLE ((List.range 8).map f)).cast (by simp)

/-- `where(input, output)` without removal of inactive rows, Where.cpp 75-111, of both parties. `levels` are the levels that the library makes
of the clause, Gmw.cpp 25. -/
def whereGmw (E : Env) (w : Where) (levels : List (List Gmw.Gate)) (t0 t1 : Table) : Res (Table × Table) := do
  let a ← setOps w t0
  let b ← setOps w t1
  let (s0, s1) ← setRun E w.rows ⟨w.clause.wireCount, w.clause.inputs, w.clause.outputs, levels⟩ a b
  let f0 ← getOutput E.junk0 s0 0 w.rows 1 1
  let f1 ← getOutput E.junk1 s1 0 w.rows 1 1
  .ok (⟨(List.range w.rows).map fun i => toByte (f0 i), t0.cols⟩, ⟨(List.range w.rows).map fun i => toByte (f1 i), t1.cols⟩)

end WhereT
end SecJoin
