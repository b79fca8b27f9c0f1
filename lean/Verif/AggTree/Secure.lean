import Verif.AggTree.Plain
/-!
# Model of the shared aggregation tree: AggTree/AggTree.cpp, AggTree/Level.h

All values are the reconstructed ones: the Gmw module runs a circuit on shares as on the values (C24). A split level holds
the left children and the right children in two lists.
-/
namespace SecJoin
namespace Agg

/-- `AggTreeType`, Level.h 10-15. -/
inductive AggType | pre | suf | full
deriving DecidableEq

/-- `type & Type::Prefix`. -/
def AggType.hasPre : AggType → Bool
  | .pre => true | .suf => false | .full => true
/-- `type & Type::Suffix`. -/
def AggType.hasSuf : AggType → Bool
  | .pre => false | .suf => true | .full => true

/-! ## The circuits at a node -/

/-- The wire bundles of the three circuits, by their names in the code. Bundles of one wire are bundles whose lowest wire
is used. -/
inductive Reg
  | leftPreVal | rghtPreVal | leftPreBit | rghtPreBit | leftSufVal | rghtSufVal | leftSufBit | rghtSufBit
  | prntPreVal | prntPreBit | prntSufVal | prntSufBit
  | preLeftVal | preLeftBit | prePrntVal | sufRghtVal | sufRghtBit | sufPrntVal
  | preLeftOut | preRghtOut | sufLeftOut | sufRghtOut
  | leftVal | rghtVal | leftOut | rghtOut
  | temp1 | temp2 | lt1 | lt2 | lt3 | rt1 | rt2 | rt3
deriving DecidableEq

/-- The contents of the bundles; a single bit is stored in a bundle of its own type. -/
structure Wires (w : Nat) where
  val : Reg → BitVec w
  bit : Reg → Bool

def Wires.setVal (s : Wires w) (r : Reg) (v : BitVec w) : Wires w :=
  { s with val := fun q => if q = r then v else s.val q }
def Wires.setBit (s : Wires w) (r : Reg) (v : Bool) : Wires w :=
  { s with bit := fun q => if q = r then v else s.bit q }

/-- What the code adds to a circuit. `op` is the caller's operator, `mux` is `BetaLibrary::multiplex_build` of
cryptoTools (not in this repository; trusted to select and to use its last argument as scratch space); the other ones are
loops of gates over the wires of the bundles. -/
inductive Instr
  | op (a b dst : Reg)
  | mux (ifTrue ifFalse choice dst tmp : Reg)
  | andBit (a b dst : Reg)
  | xor (a b dst : Reg)
  | andChoice (a choice dst : Reg)
  | copy (a dst : Reg)

/-- Evaluation of one step; `scratch` is what `multiplex_build` leaves in its scratch wires. -/
def Instr.eval (f : BitVec w → BitVec w → BitVec w) (scratch : BitVec w) (s : Wires w) : Instr → Wires w
  | .op a b d => s.setVal d (f (s.val a) (s.val b))
  | .mux t e c d x => (s.setVal x scratch).setVal d (if s.bit c then s.val t else s.val e)
  | .andBit a b d => s.setBit d (s.bit a && s.bit b)
  | .xor a b d => s.setVal d (s.val a ^^^ s.val b)
  | .andChoice a c d => s.setVal d (if s.bit c then s.val a else 0)
  | .copy a d => s.setVal d (s.val a)

def evalInstrs (f : BitVec w → BitVec w → BitVec w) (scratch : BitVec w) : List Instr → Wires w → Wires w
  | [], s => s
  | i :: is, s => evalInstrs f scratch is (i.eval f scratch s)

/-- An input or output bundle: of `bitsPerEntry` wires or of one wire. -/
inductive Port
  | v (r : Reg)
  | b (r : Reg)

/-- A circuit: its input bundles and output bundles in order, and its steps. -/
structure Circ where
  ins : List Port
  outs : List Port
  steps : List Instr

/-- A row given to or obtained from a bundle. -/
inductive Cell (w : Nat)
  | v (x : BitVec w)
  | b (x : Bool)
deriving DecidableEq

/-- `mapInput` for the input bundles in order: the number of columns and their widths have to match. -/
def loadPorts : List Port → List (Cell w) → Wires w → Res (Wires w)
  | [], [], s => .ok s
  | .v r :: ps, .v x :: cs, s => loadPorts ps cs (s.setVal r x)
  | .b r :: ps, .b x :: cs, s => loadPorts ps cs (s.setBit r x)
  | _, _, _ => .error .throw

def readPorts (s : Wires w) (ps : List Port) : List (Cell w) :=
  ps.map fun
    | .v r => .v (s.val r)
    | .b r => .b (s.bit r)

/-- Evaluate a circuit on one row. Other wires start with unknown contents `s`. -/
def Circ.run (c : Circ) (f : BitVec w → BitVec w → BitVec w) (scratch : BitVec w) (s : Wires w) (inp : List (Cell w)) :
    Res (List (Cell w)) := do
  let s ← loadPorts c.ins inp s
  .ok (readPorts (evalInstrs f scratch c.steps s) c.outs)

def optL (b : Bool) (l : List α) : List α := if b then l else []

/-- `upstreamCir`, AggTree.cpp 178-281. -/
def upstreamCir (t : AggType) : Circ where
  ins := optL t.hasPre [.v .leftPreVal, .v .rghtPreVal, .b .leftPreBit, .b .rghtPreBit] ++
    optL t.hasSuf [.v .leftSufVal, .v .rghtSufVal, .b .leftSufBit, .b .rghtSufBit]
  outs := optL t.hasPre [.v .prntPreVal, .b .prntPreBit] ++ optL t.hasSuf [.v .prntSufVal, .b .prntSufBit]
  steps :=
    optL t.hasPre [.op .leftPreVal .rghtPreVal .temp1,
      .mux .temp1 .rghtPreVal .rghtPreBit .prntPreVal .temp2,
      .andBit .leftPreBit .rghtPreBit .prntPreBit] ++
    optL t.hasSuf [.op .leftSufVal .rghtSufVal .temp1,
      .mux .temp1 .leftSufVal .leftSufBit .prntSufVal .temp2,
      .andBit .leftSufBit .rghtSufBit .prntSufBit]

/-- `downstreamCir`, AggTree.cpp 375-514. -/
def downstreamCir (t : AggType) : Circ where
  ins := optL t.hasPre [.v .preLeftVal, .b .preLeftBit, .v .prePrntVal] ++
    optL t.hasSuf [.v .sufRghtVal, .b .sufRghtBit, .v .sufPrntVal]
  outs := optL t.hasPre [.v .preLeftOut, .v .preRghtOut] ++ optL t.hasSuf [.v .sufLeftOut, .v .sufRghtOut]
  steps :=
    optL t.hasPre [.op .prePrntVal .preLeftVal .temp1,
      .xor .preLeftVal .temp1 .temp2,
      .andChoice .temp2 .preLeftBit .temp1,
      .xor .preLeftVal .temp1 .preRghtOut,
      .copy .prePrntVal .preLeftOut] ++
    optL t.hasSuf [.op .sufRghtVal .sufPrntVal .temp1,
      .xor .sufRghtVal .temp1 .temp2,
      .andChoice .temp2 .sufRghtBit .temp1,
      .xor .sufRghtVal .temp1 .sufLeftOut,
      .copy .sufPrntVal .sufRghtOut]

/-- `leafCircuit`, AggTree.cpp 740-839. -/
def leafCircuit (t : AggType) : Circ where
  ins := [.v .leftVal, .v .rghtVal] ++
    optL t.hasPre [.v .leftPreVal, .v .rghtPreVal, .b .leftPreBit, .b .rghtPreBit] ++
    optL t.hasSuf [.v .leftSufVal, .v .rghtSufVal, .b .leftSufBit, .b .rghtSufBit]
  outs := [.v .leftOut, .v .rghtOut]
  steps := match t with
    | .pre => [.op .leftPreVal .leftVal .lt1, .op .rghtPreVal .rghtVal .rt1,
        .mux .lt1 .leftVal .leftPreBit .leftOut .lt2, .mux .rt1 .rghtVal .rghtPreBit .rghtOut .rt2]
    | .suf => [.op .leftVal .leftSufVal .lt1, .op .rghtVal .rghtSufVal .rt1,
        .mux .lt1 .leftVal .leftSufBit .leftOut .lt2, .mux .rt1 .rghtVal .rghtSufBit .rghtOut .rt2]
    | .full => [.op .leftPreVal .leftVal .lt1, .op .rghtPreVal .rghtVal .rt1,
        .mux .lt1 .leftVal .leftPreBit .lt3 .lt2, .mux .rt1 .rghtVal .rghtPreBit .rt3 .rt2,
        .op .lt3 .leftSufVal .lt1, .op .rt3 .rghtSufVal .rt1,
        .mux .lt1 .lt3 .leftSufBit .leftOut .lt2, .mux .rt1 .rt3 .rghtSufBit .rghtOut .rt2]

/-! ## The columns mapped to the circuits -/

/-- A node of a level: value and bit of the prefix half and of the suffix half. -/
abbrev Node (V : Type) := (V × Bool) × (V × Bool)

/-- The inputs of `upstream`, AggTree.cpp 306-336, for a pair of children. -/
def upInputs (t : AggType) (l r : Node (BitVec w)) : List (Cell w) :=
  optL t.hasPre [.v l.1.1, .v r.1.1, .b l.1.2, .b r.1.2] ++ optL t.hasSuf [.v l.2.1, .v r.2.1, .b l.2.2, .b r.2.2]

/-- The inputs of `downstream`, AggTree.cpp 558-588: `p` are the two values of the parent. -/
def downInputs (t : AggType) (l r : Node (BitVec w)) (p : BitVec w × BitVec w) : List (Cell w) :=
  optL t.hasPre [.v l.1.1, .b l.1.2, .v p.1] ++ optL t.hasSuf [.v r.2.1, .b r.2.2, .v p.2]

/-- The inputs of `computeLeaf`, AggTree.cpp 857-893: `pl`, `pr` are the downstream values of the two leaves. -/
def leafInputs (t : AggType) (l r : Node (BitVec w)) (pl pr : BitVec w × BitVec w) : List (Cell w) :=
  (if t.hasPre then [.v l.1.1, .v r.1.1] else [.v l.2.1, .v r.2.1]) ++
  optL t.hasPre [.v pl.1, .v pr.1, .b l.1.2, .b r.1.2] ++
  optL t.hasSuf [.v pl.2, .v pr.2, .b l.2.2, .b r.2.2]

/-! ## The tree -/

/-- `perfectUnshuffle` on rows, AggTree.cpp 7-54 (C30). -/
def unzipAlt : List α → List α × List α
  | [] => ([], [])
  | [a] => ([a], [])
  | a :: b :: l => (a :: (unzipAlt l).1, b :: (unzipAlt l).2)

/-- `perfectShuffle` on rows, AggTree.cpp 57-103. -/
def zipAlt : List α → List α → List α
  | a :: l, b :: r => a :: b :: zipAlt l r
  | _, _ => []

/-- Overwrite the beginning of a column. -/
def overwrite (src dst : List α) : Res (List α) :=
  if src.length ≤ dst.length then .ok (src ++ dst.drop src.length) else .error .ub

/-- Copy `size` entries of a column, with bounds as asserted. Offsets in the code are in bytes of 8 entries. -/
def copyAt (src dst : List α) (srcStart dstStart size : Nat) : Res (List α) :=
  if srcStart + size ≤ src.length ∧ dstStart + size ≤ dst.length then
    .ok (dst.take dstStart ++ (src.drop srcStart).take size ++ dst.drop (dstStart + size))
  else .error .ub

/-- The leaf bits of the suffix half as `setLeafVals` sets them, Level.h 232-271: the bit of the following row, zero for
the last row. -/
def sufBits (c : List Bool) : List Bool := c.tail ++ [false]

/-- `setLeafVals`, Level.h 160-291 and 307-323: the rows, then zeros up to `n16`. In the prefix half the bit of a row is its
control bit, also for the first row. The loops go over pairs of rows; with fewer than two rows the bound of the suffix
loop wraps around. -/
def setLeafVals (zero : V) (n16 : Nat) (xs : List V) (bits : List Bool) : List (V × Bool) :=
  List.zip xs bits ++ List.replicate (n16 - xs.length) (zero, false)

/-- `SplitLevel::copy`, Level.h 334-374, for one column pair. -/
def copySplit (zero : α) (src : List α × List α) (srcOffset destOffset dstSize : Nat) : Res (List α × List α) := do
  throwIf (srcOffset % 16 ≠ 0)
  throwIf (destOffset % 16 ≠ 0)
  let srcSize := src.1.length + src.2.length - srcOffset
  throwIf (srcSize % 16 ≠ 0)
  throwIf (dstSize < srcSize + destOffset)
  let l ← copyAt src.1 (List.replicate (divCeil dstSize 2) zero) (srcOffset / 16 * 8) (destOffset / 16 * 8) (srcSize / 16 * 8)
  let r ← copyAt src.2 (List.replicate (dstSize - divCeil dstSize 2) zero) (srcOffset / 16 * 8) (destOffset / 16 * 8)
    (srcSize / 16 * 8)
  .ok (l, r)

/-- The loop of `upstream`, AggTree.cpp 302-371, for one half: the current level and the levels above it without the
root. Returns all split levels and the root. -/
def sUpFrom (d : Dir V) : List (V × Bool) × List (V × Bool) → List (List (V × Bool) × List (V × Bool)) →
    Res (List (List (V × Bool) × List (V × Bool)) × List (V × Bool))
  | c, [] => do
    throwIf (c.1.length ≠ c.2.length)
    .ok ([c], List.zipWith d.up c.1 c.2)
  | c, p :: ps => do
    throwIf (c.1.length ≠ c.2.length)
    let u := unzipAlt (List.zipWith d.up c.1 c.2)
    let l ← overwrite u.1 p.1
    let r ← overwrite u.2 p.2
    let (ls, root) ← sUpFrom d (l, r) ps
    .ok (c :: ls, root)

/-- One circuit evaluation of `downstream`, AggTree.cpp 550-593: left and right values from the children and the
parents. -/
def sDownLevel (d : Dir V) (c : List (V × Bool) × List (V × Bool)) (parent : List V) : Res (List V × List V) := do
  throwIf (c.1.length ≠ c.2.length)
  throwIf (parent.length ≠ c.1.length)
  let both := List.zipWith (fun v ab => d.down v ab.1 ab.2) parent (List.zip c.1 c.2)
  .ok (both.map (·.1), both.map (·.2))

/-- The loop of `downstream`, AggTree.cpp 542-734, for one half, on the split levels from the leaves up: the values at each
level (`temp`). The parents of the next level are the first `nextParent` rows of the merged children. -/
def sDownFrom (d : Dir V) (root : List V) : List (List (V × Bool) × List (V × Bool)) → Res (List (List V × List V))
  | [] => .error .ub
  | [c] => do
    let t ← sDownLevel d c root
    .ok [t]
  | c :: p :: ps => do
    let ds ← sDownFrom d root (p :: ps)
    let t ← rd ds 0
    let m := c.1.length / 2
    let parent := zipAlt (t.1.take m) (t.2.take m)
    let t' ← sDownLevel d c parent
    .ok (t' :: ds)

/-- `newVals` of `downstream`, AggTree.cpp 675-733. -/
def newVals (p : Params) (zero : V) (ds : List (List V × List V)) : Res (List V × List V) := do
  let t0 ← rd ds 0
  if p.complete then .ok t0
  else do
    let t1 ← rd ds 1
    let s0 ← rd p.sizes 0
    let s1 ← rd p.sizes 1
    let z := List.replicate (p.n16 / 2) zero
    let srcStart := p.r / 16 * 8
    let dstStart := s0 / 16 * 8
    let size := (s1 - p.r) / 16 * 8
    let l ← copyAt t1.1 z srcStart dstStart size
    let r ← copyAt t1.2 z srcStart dstStart size
    let l ← copyAt t0.1 l 0 0 (s0 / 16 * 8)
    let r ← copyAt t0.2 r 0 0 (s0 / 16 * 8)
    .ok (l, r)

/-- `upstream` and `downstream` for one half: the downstream values of the leaves, split. -/
def sHalf (p : Params) (d : Dir V) (zero : V) (leaves : List (V × Bool)) : Res (List V × List V) := do
  let all := unzipAlt leaves
  let init := p.sizes.map fun s => (List.replicate (s / 2) (zero, false), List.replicate (s / 2) (zero, false))
  let s0 ← rd p.sizes 0
  let s1 ← rd p.sizes 1
  let (l0, rest) ← (if p.complete then .ok (all, (init.drop 1).dropLast) else do
    let l1 ← copySplit (zero, false) all (p.r * 2) p.r s1
    .ok ((all.1.take (s0 / 2), all.2.take (s0 / 2)), l1 :: (init.drop 2).dropLast) : Res _)
  let (ls, root) ← sUpFrom d l0 rest
  let ds ← sDownFrom d (root.map (·.1)) ls
  newVals p zero ds

/-- The value at a leaf: `leafCircuit`. -/
def leafFn (t : AggType) (op : V → V → V) (x : V) (pre suf : V × Bool) : V :=
  match t with
  | .pre => if pre.2 then op pre.1 x else x
  | .suf => if suf.2 then op x suf.1 else x
  | .full =>
    let y := if pre.2 then op pre.1 x else x
    if suf.2 then op y suf.1 else y

/-- The rows of `computeLeaf` on one side, AggTree.cpp 850-896: the leaves `lp`, `ls` and the downstream values `vp`, `vs` of
the two halves. The value of a leaf is stored in both halves; the prefix one is used if it exists. -/
def leafSide (t : AggType) (op : V → V → V) (zero : V) (m : Nat) (lp ls : List (V × Bool)) (vp vs : List V) :
    Res (List V) :=
  mapRes (fun i => do
    let a ← (if t.hasPre then rd lp i else .ok (zero, false) : Res _)
    let b ← (if t.hasSuf then rd ls i else .ok (zero, false) : Res _)
    let va ← (if t.hasPre then rd vp i else .ok zero : Res _)
    let vb ← (if t.hasSuf then rd vs i else .ok zero : Res _)
    let x := if t.hasPre then a.1 else b.1
    .ok (leafFn t op x (va, a.2) (vb, b.2))) (List.range m)

/-- `AggTree::apply`, AggTree.cpp 148-175, with `computeLeaf` 842-932: `mN` rows, taken in turn from the left and the
right outputs. -/
def aggTree (t : AggType) (op : V → V → V) (zero : V) (xs : List V) (c : List Bool) : Res (List V) := do
  let p ← computeTreeSizes xs.length
  throwIf (xs.length ≠ c.length)
  let leavesP := setLeafVals zero p.n16 xs c
  let leavesS := setLeafVals zero p.n16 xs (sufBits c)
  let pre ← (if t.hasPre then sHalf p (prefixDir op) zero leavesP else .ok ([], []) : Res _)
  let suf ← (if t.hasSuf then sHalf p (suffixDir op) zero leavesS else .ok ([], []) : Res _)
  let l ← leafSide t op zero (p.n16 / 2) (unzipAlt leavesP).1 (unzipAlt leavesS).1 pre.1 suf.1
  let r ← leafSide t op zero (p.n16 / 2) (unzipAlt leavesP).2 (unzipAlt leavesS).2 pre.2 suf.2
  if l.length + r.length < xs.length then .error .throw
  else .ok ((zipAlt l r).take xs.length)

end Agg
end SecJoin
