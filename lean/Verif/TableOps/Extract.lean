import Verif.PermCor.Model
import Verif.Table.Model
/-!
# Removing inactive rows: TableOps/Extract

Model of `/repo/secure-join/TableOps/Extract.cpp`. The generated shared permutation is an argument (C58, C66); its
application is the model of `ComposedPerm`. Both parties run in lockstep.
-/
namespace SecJoin
namespace Extract

/-- `combine(input)`, Extract.cpp 53-79: the widths are added up and row `i` is the concatenation of the rows `i`. -/
def combine (input : List (Nat × List Row)) : Res (Mat Row) :=
  match input with
  | [] => .error .throw
  | m :: _ =>
    if input.all (fun x => x.2.length == m.2.length) then
      .ok ⟨(input.map (·.1)).sum, (List.range m.2.length).map fun i => (input.map fun x => x.2.getD i []).flatten⟩
    else .error .throw

/-- The inner loop Extract.cpp 174-179: the row is cut into pieces of the given sizes; a piece beyond the row is undefined. -/
def cut : List Nat → Row → Res (List Row)
  | [], _ => .ok []
  | s :: ss, r =>
    if s ≤ r.length then do
      let t ← cut ss (r.drop s)
      .ok (r.take s :: t)
    else .error .ub

/-- The outputs of one party, Extract.cpp 166-182, given the revealed flags: `output[i]` is resized for the rows kept with
the bits of `input[i]`, and filled from the rows of `combined`. -/
def collect (flags : List Bool) (input : List BinMatrix) (combined : List Row) : Res (List BinMatrix) := do
  let kept := (List.range flags.length).filter fun i => flags.getD i false
  let rows ← mapRes (fun i => cut (input.map fun m => divCeil m.bits 8) ((combined.getD i []).drop 1)) kept
  .ok ((List.range input.length).map fun j =>
    let bits := (input.getD j ⟨0, 0, []⟩).bits
    ⟨bits, divCeil bits 8, rows.map fun r => r.getD j []⟩)

/-- One party's checks and combined matrix, Extract.cpp 118-134. `outs` is the number of output matrices. -/
def prepare (n : Nat) (flags : List Byte) (input : List BinMatrix) (outs : Nat) : Res (Mat Row) := do
  throwIf (flags.length != n)
  throwIf (input.length != outs)
  throwIf (!input.all fun m => m.rows.length == n)
  combine ((1, flags.map fun b => [b]) :: input.map fun m => (m.cols, m.rows))

/-- `apply(extractionFlags, input, output)`, Extract.cpp 111-183, of both parties with the generated permutation `p0`,
`p1`. -/
def applyMat (n : Nat) (p0 p1 : ComposedPerm) (f0 f1 : List Byte) (in0 in1 : List BinMatrix) (outs : Nat) :
    Res (List BinMatrix × List BinMatrix) := do
  let x0 ← prepare n f0 in0 outs
  let x1 ← prepare n f1 in1 outs
  let (_, _, y0, y1) ← ComposedPerm.applyBoth p0 p1 .regular x0 x1
  let flags := (List.range n).map fun i =>
    ((y0.rows.getD i []).getD 0 0).getLsbD 0 ^^ ((y1.rows.getD i []).getD 0 0).getLsbD 0
  let o0 ← collect flags in0 y0.rows
  let o1 ← collect flags in1 y1.rows
  .ok (o0, o1)

/-- The columns of the output table before the run, Extract.cpp 37-42: they are set up anew only if their number differs
from that of the input. -/
def outInfos (input output : Table) : Res (List ColumnInfo) :=
  if output.cols.length ≠ input.cols.length then do
    let t ← Table.init 0 input.getColumnInfo
    .ok t.getColumnInfo
  else .ok output.getColumnInfo

/-- `apply(input, output)`, Extract.cpp 28-49, of both parties; `out0`, `out1` are the output tables before the call. -/
def applyTable (n : Nat) (p0 p1 : ComposedPerm) (t0 t1 out0 out1 : Table) : Res (Table × Table) := do
  throwIf (t0.isActive.length != n)
  throwIf (t1.isActive.length != n)
  let i0 ← outInfos t0 out0
  let i1 ← outInfos t1 out1
  let (o0, o1) ← applyMat n p0 p1 t0.isActive t1.isActive (t0.cols.map (·.data)) (t1.cols.map (·.data)) t0.cols.length
  .ok (⟨[], List.zipWith Column.mk i0 o0⟩, ⟨[], List.zipWith Column.mk i1 o1⟩)

/-- The bytes per row of the permutation correlation that `init(rows, bytesPerEntry)` leads to, Extract.cpp 7-14 with
AltModPerm.cpp 63 and 120: whole blocks. -/
def budget (bytesPerEntry : Nat) : Nat := 16 * divCeil bytesPerEntry 16

/-- The bytes `init(rows, colInfos)` asks for, Extract.cpp 16-26. -/
def infoBytes (infos : List ColumnInfo) : Nat := (infos.map fun c => divCeil c.bits 8).sum

end Extract
end SecJoin
