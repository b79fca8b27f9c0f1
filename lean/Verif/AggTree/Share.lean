import Verif.AggTree.Secure
import Verif.GMW.Map
/-!
# The aggregation tree on shares, with its circuits run by the protocol: AggTree/AggTree.cpp, AggTree/Level.h

Each party holds lists of shares; a value or bit is the XOR of the two shares. Everything but the circuits is done by each party on its own.
The circuits are evaluated by `Gmw` on mapped matrices. Columns are lists of rows here; they are converted to the transposed matrices that
`Gmw` maps, with any number of blocks in a row and any contents beyond the last row.
-/
namespace SecJoin
namespace Agg
open Gmw.Wires (Col Mem Env Cir mapCall leafCall)

/-- A column of one party. -/
inductive TCol (w : Nat)
  | v (l : List (BitVec w))
  | b (l : List Bool)

/-- The value with the bits `g`. -/
def mkVec (w : Nat) (g : Nat → Bool) : BitVec w := (BitVec.ofBoolListLE ((List.range w).map g)).cast (by simp)

/-- The column as it is given to `Gmw`. -/
def TCol.toCol : TCol w → Col
  | .v l => ⟨w, l.map fun x j => x.getLsbD j⟩
  | .b l => ⟨1, l.map fun x _ => x⟩

/-- A column that `Gmw` has written, for a port of the circuit. -/
def ofCol (w : Nat) : Port → Col → TCol w
  | .v _, c => .v (c.rows.map (mkVec w))
  | .b _, c => .b (c.rows.map fun g => g 0)

def Port.bits (w : Nat) : Port → Nat
  | .v _ => w
  | .b _ => 1

def TCol.vals : TCol w → List (BitVec w)
  | .v l => l
  | .b _ => []
def TCol.bits : TCol w → List Bool
  | .v _ => []
  | .b l => l

/-- The two halves of a level of one party. -/
structure Lv (α : Type) where
  pre : List α
  suf : List α

/-- A level with the left and the right children apart. -/
abbrev Sp (α : Type) := Lv α × Lv α

/-- What the tree takes from elsewhere: the circuits as levelled by the library, and for each evaluation the OLEs and the memory. -/
structure TreeEnv where
  up : Cir
  down : Cir
  leaf : Cir
  upE : Nat → Env
  upM0 : Nat → Mem
  upM1 : Nat → Mem
  downE : Nat → Env
  downM0 : Nat → Mem
  downM1 : Nat → Mem
  leafE : Env
  leafM0 : Mem
  leafM1 : Mem

/-- The columns mapped in `upstream`, AggTree.cpp 306-336. -/
def upCols (t : AggType) (l r : Lv (BitVec w × Bool)) : List (TCol w) :=
  optL t.hasPre [.v (l.pre.map (·.1)), .v (r.pre.map (·.1)), .b (l.pre.map (·.2)), .b (r.pre.map (·.2))] ++
  optL t.hasSuf [.v (l.suf.map (·.1)), .v (r.suf.map (·.1)), .b (l.suf.map (·.2)), .b (r.suf.map (·.2))]

/-- The columns mapped in `downstream`, AggTree.cpp 558-588. -/
def downCols (t : AggType) (l r : Lv (BitVec w × Bool)) (p : Lv (BitVec w)) : List (TCol w) :=
  optL t.hasPre [.v (l.pre.map (·.1)), .b (l.pre.map (·.2)), .v p.pre] ++
  optL t.hasSuf [.v (r.suf.map (·.1)), .b (r.suf.map (·.2)), .v p.suf]

/-- The columns mapped in `computeLeaf`, AggTree.cpp 857-893. -/
def leafCols (t : AggType) (l r : Lv (BitVec w × Bool)) (pl pr : Lv (BitVec w)) : List (TCol w) :=
  (if t.hasPre then [.v (l.pre.map (·.1)), .v (r.pre.map (·.1))] else [.v (l.suf.map (·.1)), .v (r.suf.map (·.1))]) ++
  optL t.hasPre [.v pl.pre, .v pr.pre, .b (l.pre.map (·.2)), .b (r.pre.map (·.2))] ++
  optL t.hasSuf [.v pl.suf, .v pr.suf, .b (l.suf.map (·.2)), .b (r.suf.map (·.2))]

/-- The outputs of a circuit, by its ports. -/
def ofCols (w : Nat) (ps : List Port) (cs : List Col) : List (TCol w) := List.zipWith (ofCol w) ps cs

/-- The parents that the upstream circuit has written: value and bit of each half. -/
def upRead (t : AggType) (o : List (TCol w)) : Lv (BitVec w × Bool) :=
  let s := if t.hasPre then 2 else 0
  ⟨if t.hasPre then List.zip (o.getD 0 (.b [])).vals (o.getD 1 (.b [])).bits else [],
   if t.hasSuf then List.zip (o.getD s (.b [])).vals (o.getD (s + 1) (.b [])).bits else []⟩

/-- The values for the left and the right children that the downstream circuit has written. -/
def downRead (t : AggType) (o : List (TCol w)) : Sp (BitVec w) :=
  let s := if t.hasPre then 2 else 0
  (⟨if t.hasPre then (o.getD 0 (.b [])).vals else [], if t.hasSuf then (o.getD s (.b [])).vals else []⟩,
   ⟨if t.hasPre then (o.getD 1 (.b [])).vals else [], if t.hasSuf then (o.getD (s + 1) (.b [])).vals else []⟩)

/-- The evaluation of the upstream circuit at level `lvl` for `n` pairs, AggTree.cpp 304-342. -/
def upEval (T : TreeEnv) (w : Nat) (t : AggType) (lvl n : Nat) (c0 c1 : Sp (BitVec w × Bool)) : Res (Lv (BitVec w × Bool) × Lv (BitVec w × Bool)) := do
  let (o0, o1) ← mapCall (T.upE lvl) (T.upM0 lvl) (T.upM1 lvl) n T.up ((upstreamCir t).outs.map (Port.bits w))
    ((upCols t c0.1 c0.2).map TCol.toCol) ((upCols t c1.1 c1.2).map TCol.toCol)
  .ok (upRead t (ofCols w (upstreamCir t).outs o0), upRead t (ofCols w (upstreamCir t).outs o1))

/-- The evaluation of the downstream circuit at level `lvl` for `n` pairs, AggTree.cpp 549-593. -/
def downEval (T : TreeEnv) (w : Nat) (t : AggType) (lvl n : Nat) (c0 c1 : Sp (BitVec w × Bool)) (p0 p1 : Lv (BitVec w)) :
    Res (Sp (BitVec w) × Sp (BitVec w)) := do
  let (o0, o1) ← mapCall (T.downE lvl) (T.downM0 lvl) (T.downM1 lvl) n T.down ((downstreamCir t).outs.map (Port.bits w))
    ((downCols t c0.1 c0.2 p0).map TCol.toCol) ((downCols t c1.1 c1.2 p1).map TCol.toCol)
  .ok (downRead t (ofCols w (downstreamCir t).outs o0), downRead t (ofCols w (downstreamCir t).outs o1))

/-- For each half of the type. -/
def onHalves (t : AggType) (f g : Res (List α)) : Res (Lv α) := do
  let p ← (if t.hasPre then f else .ok [] : Res _)
  let s ← (if t.hasSuf then g else .ok [] : Res _)
  .ok ⟨p, s⟩

/-- The parents are split into the level above, AggTree.cpp 345-369. -/
def splitOver (t : AggType) (par : Lv α) (p : Sp α) : Res (Sp α) := do
  let l ← onHalves t (overwrite (unzipAlt par.pre).1 p.1.pre) (overwrite (unzipAlt par.suf).1 p.1.suf)
  let r ← onHalves t (overwrite (unzipAlt par.pre).2 p.2.pre) (overwrite (unzipAlt par.suf).2 p.2.suf)
  .ok (l, r)

/-- The loop of `upstream`, AggTree.cpp 302-371, of both parties, from level `lvl` on; `sizes` are the sizes of this level and those above
(`mUpGmw[lvl].init(mLevelSizes[lvl] / 2, ...)`, line 134). -/
def upLoop (T : TreeEnv) (w : Nat) (t : AggType) : Nat → List Nat → Sp (BitVec w × Bool) × Sp (BitVec w × Bool) → List (Sp (BitVec w × Bool) × Sp (BitVec w × Bool)) →
    Res (List (Sp (BitVec w × Bool) × Sp (BitVec w × Bool)) × Lv (BitVec w × Bool) × Lv (BitVec w × Bool))
  | _, [], _, _ => .error .ub
  | lvl, s :: _, c, [] => do
    let root ← upEval T w t lvl (s / 2) c.1 c.2
    .ok ([c], root)
  | lvl, s :: ss, c, p :: ps => do
    let par ← upEval T w t lvl (s / 2) c.1 c.2
    let p0 ← splitOver t par.1 p.1
    let p1 ← splitOver t par.2 p.2
    let (ls, root) ← upLoop T w t (lvl + 1) ss (p0, p1) ps
    .ok (c :: ls, root)

/-- The next parents, AggTree.cpp 613-660: the merged children, as many as there are next children `c`. -/
def merge (t : AggType) (c : Sp α) (v : Sp β) : Lv β :=
  ⟨if t.hasPre then zipAlt (v.1.pre.take (c.1.pre.length / 2)) (v.2.pre.take (c.1.pre.length / 2)) else [],
   if t.hasSuf then zipAlt (v.1.suf.take (c.1.suf.length / 2)) (v.2.suf.take (c.1.suf.length / 2)) else []⟩

/-- The loop of `downstream`, AggTree.cpp 542-734, of both parties, for level `lvl` and those above: the values at each level. -/
def downLoop (T : TreeEnv) (w : Nat) (t : AggType) (root : Lv (BitVec w) × Lv (BitVec w)) : Nat → List Nat →
    List (Sp (BitVec w × Bool) × Sp (BitVec w × Bool)) → Res (List (Sp (BitVec w) × Sp (BitVec w)))
  | _, [], _ => .error .ub
  | _, _, [] => .error .ub
  | lvl, s :: _, [c] => do
    let v ← downEval T w t lvl (s / 2) c.1 c.2 root.1 root.2
    .ok [v]
  | lvl, s :: ss, c :: p :: ps => do
    let ds ← downLoop T w t root (lvl + 1) ss (p :: ps)
    let v ← rd ds 0
    let v' ← downEval T w t lvl (s / 2) c.1 c.2 (merge t c.1 v.1) (merge t c.2 v.2)
    .ok (v' :: ds)

/-- `levels[0]` after `setLeafVals` (Level.h 160-323) of one party: both halves, left and right children apart. -/
def leavesOf (t : AggType) (zero : V) (n16 : Nat) (xs : List V) (c : List Bool) : Sp (V × Bool) :=
  let p := if t.hasPre then unzipAlt (setLeafVals zero n16 xs c) else ([], [])
  let s := if t.hasSuf then unzipAlt (setLeafVals zero n16 xs (sufBits c)) else ([], [])
  (⟨p.1, s.1⟩, ⟨p.2, s.2⟩)

/-- A pair of columns for each half of the type. -/
def onPairs (t : AggType) (f g : Res (List α × List α)) : Res (Sp α) := do
  let p ← (if t.hasPre then f else .ok ([], []) : Res _)
  let s ← (if t.hasSuf then g else .ok ([], []) : Res _)
  .ok (⟨p.1, s.1⟩, ⟨p.2, s.2⟩)

/-- `resize` of a split level of size `s`, AggTree.cpp 349-350: zeros. -/
def zeroLevel (t : AggType) (zero : α) (s : Nat) : Sp α :=
  let l := List.replicate (s / 2) zero
  (⟨if t.hasPre then l else [], if t.hasSuf then l else []⟩, ⟨if t.hasPre then l else [], if t.hasSuf then l else []⟩)

/-- The levels of one party before the loop of `upstream`, AggTree.cpp 292-300. -/
def startLevels (t : AggType) (p : Params) (zero : V) (all : Sp (V × Bool)) : Res (Sp (V × Bool) × List (Sp (V × Bool))) := do
  let s0 ← rd p.sizes 0
  let s1 ← rd p.sizes 1
  let init := p.sizes.map (zeroLevel t (zero, false))
  if p.complete then .ok (all, (init.drop 1).dropLast) else do
    let l1 ← onPairs t (copySplit (zero, false) (all.1.pre, all.2.pre) (p.r * 2) p.r s1)
      (copySplit (zero, false) (all.1.suf, all.2.suf) (p.r * 2) p.r s1)
    let cut := fun l : List (V × Bool) => l.take (s0 / 2)
    .ok ((⟨cut all.1.pre, cut all.1.suf⟩, ⟨cut all.2.pre, cut all.2.suf⟩), l1 :: (init.drop 2).dropLast)

/-- `newVals` of one party, AggTree.cpp 675-733. -/
def newLeaves (t : AggType) (p : Params) (zero : V) (ds : List (Sp V)) : Res (Sp V) :=
  onPairs t (newVals p zero (ds.map fun d => (d.1.pre, d.2.pre))) (newVals p zero (ds.map fun d => (d.1.suf, d.2.suf)))

/-- The rows of `computeLeaf`, AggTree.cpp 905-930, of one party: in turn from the left and the right outputs. -/
def leafRows (n : Nat) (o : List (TCol w)) : Res (List (BitVec w)) :=
  let l := (o.getD 0 (.b [])).vals
  let r := (o.getD 1 (.b [])).vals
  if l.length + r.length < n then .error .throw else .ok ((zipAlt l r).take n)

/-- `AggTree::apply`, AggTree.cpp 148-175, of both parties on shares of `mN` rows of `w` bits and of the control bits. -/
def aggTreeGmw (T : TreeEnv) (w : Nat) (t : AggType) (xs0 xs1 : List (BitVec w)) (c0 c1 : List Bool) : Res (List (BitVec w) × List (BitVec w)) := do
  let p ← computeTreeSizes xs0.length
  throwIf (xs0.length ≠ c0.length)
  throwIf (xs1.length ≠ c1.length)
  let a0 := leavesOf t 0 p.n16 xs0 c0
  let a1 := leavesOf t 0 p.n16 xs1 c1
  let (l0, rest0) ← startLevels t p 0 a0
  let (l1, rest1) ← startLevels t p 0 a1
  let (ls, root) ← upLoop T w t 0 p.sizes (l0, l1) (List.zip rest0 rest1)
  let top := fun r : Lv (BitVec w × Bool) => (⟨r.pre.map (·.1), r.suf.map (·.1)⟩ : Lv (BitVec w))
  let ds ← downLoop T w t (top root.1, top root.2) 0 p.sizes ls
  let v0 ← newLeaves t p 0 (ds.map (·.1))
  let v1 ← newLeaves t p 0 (ds.map (·.2))
  let (o0, o1) ← leafCall T.leafE T.leafM0 T.leafM1 (p.n16 / 2) T.leaf ((leafCircuit t).outs.map (Port.bits w))
    ((leafCols t a0.1 a0.2 v0.1 v0.2).map TCol.toCol) ((leafCols t a1.1 a1.2 v1.1 v1.2).map TCol.toCol)
  let r0 ← leafRows xs0.length (ofCols w (leafCircuit t).outs o0)
  let r1 ← leafRows xs0.length (ofCols w (leafCircuit t).outs o1)
  .ok (r0, r1)

end Agg
end SecJoin
