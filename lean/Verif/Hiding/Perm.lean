import Verif.TableOps.Extract
/-!
# What is opened when rows are removed and when a shared permutation is corrected

The functions of `TableOps/Extract.lean` and `PermCor/Model.lean` with the opened values kept.
-/
namespace SecJoin

/-- `Extract::apply` up to the opening of the flags, `/repo/secure-join/TableOps/Extract.cpp` 111-147, of both parties: the permuted rows and the opened
flags. Both parties send the low bits of their permuted flags (Extract.cpp 139-147); the sum is what is opened. -/
def Extract.opened (n : Nat) (p0 p1 : ComposedPerm) (f0 f1 : List Byte) (in0 in1 : List BinMatrix) (outs : Nat) :
    Res (List Row × List Row × List Bool) := do
  let x0 ← prepare n f0 in0 outs
  let x1 ← prepare n f1 in1 outs
  let (_, _, y0, y1) ← ComposedPerm.applyBoth p0 p1 .regular x0 x1
  .ok (y0.rows, y1.rows, (List.range n).map fun i =>
    ((y0.rows.getD i []).getD 0 0).getLsbD 0 ^^ ((y1.rows.getD i []).getD 0 0).getLsbD 0)

/-- `ComposedPerm::derandomize`, `/repo/secure-join/Perm/ComposedPerm.cpp` 44-101, of both parties with what they learn: the permutation opened to
the party of index 0 and the message it sends to the other one (PermCorrelation.h 61-75). -/
def ComposedPerm.derandView (c0 c1 : ComposedPerm) (s0 s1 : List (BitVec 32)) :
    Res (List Nat × List Nat × ComposedPerm × ComposedPerm) := do
  if c0.idx != 0 || c1.idx == 0 then .error .diverge else
  let (snd1, rcv0, _, d1, d0) ←
    SecJoin.applyBoth c1.snd c0.rcv .inverse (u32Mat s0) (some (u32Mat s1))
  let d1 ← matU32 d1
  let d0 ← matU32 d0
  throwIf (d1.length != s0.length)
  let p0 : SecJoin.Perm := ⟨(List.zipWith (· ^^^ ·) d1 d0).map BitVec.toNat⟩
  let (snd0, msg) ← c0.snd.derandomize p0
  let rcv1 ← c1.rcv.derandomize msg
  .ok (p0.pi, msg, ⟨c0.idx, snd0, rcv0⟩, ⟨c1.idx, snd1, rcv1⟩)

end SecJoin
