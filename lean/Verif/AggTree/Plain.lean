import Verif.Basic
import Mathlib.Data.Nat.Log
/-!
# Model of the plaintext aggregation tree: AggTree/Level.h, AggTree/PlainAggTree.cpp

A node of the upstream pass is a pair of a value and a control bit. The prefix and the suffix half of the tree do not
interact; a level is modelled as one list of nodes for each half. Values have an arbitrary type `V`.
-/
namespace SecJoin
namespace Agg

/-- `AggTreeParam`, Level.h 18-41. -/
structure Params where
  n : Nat
  n16 : Nat
  r : Nat
  complete : Bool
  sizes : List Nat
deriving DecidableEq

/-- The halving loop of `computeTreeSizes`, Level.h 88-89: `k` further levels above a level of size `s`. -/
def halves : Nat → Nat → List Nat
  | 0, _ => []
  | k + 1, s => s / 2 :: halves k (s / 2)

/-- `computeTreeSizes`, Level.h 59-94. For one row `mLevelSizes` has a single entry and the code writes entry 1 of
it. The logarithm of zero is not defined. The final assertions are modelled as undefined behaviour. -/
def computeTreeSizes (n : Nat) : Res Params :=
  if n = 0 then .error .ub
  else
    let n16 := min (2 ^ Nat.clog 2 n) (divCeil n 16 * 16)
    let logfn := Nat.log 2 n16
    let logn := Nat.clog 2 n16
    let complete := logfn == logn
    let r := n16 - 2 ^ logfn
    let s0 := if r ≠ 0 then 2 * r else n16
    if logn = 0 then .error .ub
    else
      let s1 := if complete then s0 / 2 else 2 ^ logfn
      let sizes := s0 :: s1 :: halves (logn - 1) s1
      if sizes.getLast? ≠ some 1 then .error .ub
      else if r % 8 ≠ 0 then .error .ub
      else .ok ⟨n, n16, r, complete, sizes⟩

/-- The functions at an inner node of one half of the tree. -/
structure Dir (V : Type) where
  up : V × Bool → V × Bool → V × Bool
  down : V → V × Bool → V × Bool → V × V

/-- Prefix half: PlainAggTree.cpp 133-142 and 178-195. -/
def prefixDir (op : V → V → V) : Dir V where
  up a b := (if b.2 then op a.1 b.1 else b.1, b.2 && a.2)
  down v a _ := (v, if a.2 then op v a.1 else a.1)

/-- Suffix half: PlainAggTree.cpp 144-156 and 196-209. -/
def suffixDir (op : V → V → V) : Dir V where
  up a b := (if a.2 then op a.1 b.1 else a.1, b.2 && a.2)
  down v _ b := (if b.2 then op b.1 v else b.1, v)

/-- The leaf node `i` of the prefix half, PlainAggTree.cpp 82-99 and 106-119. -/
def prefixLeaf (zero : V) (xs : List V) (c : List Bool) (i : Nat) : Res (V × Bool) :=
  if i < xs.length then do
    let x ← rd xs i
    let b ← (if i ≠ 0 then rd c i else .ok false : Res Bool)
    .ok (x, b)
  else .ok (zero, false)

/-- The leaf node `i` of the suffix half. -/
def suffixLeaf (zero : V) (xs : List V) (c : List Bool) (i : Nat) : Res (V × Bool) :=
  if i < xs.length then do
    let x ← rd xs i
    let b ← (if i ≠ xs.length - 1 then rd c (i + 1) else .ok false : Res Bool)
    .ok (x, b)
  else .ok (zero, false)

/-- The two loops of `loadLeaves`, PlainAggTree.cpp 82-119, from leaf `i` on: a leaf goes to level 0 or 1. -/
def loadLoop (s0 r : Nat) (leaf : Nat → Res (V × Bool)) :
    Nat → Nat → List (V × Bool) → List (V × Bool) → Res (List (V × Bool) × List (V × Bool))
  | 0, _, l0, l1 => .ok (l0, l1)
  | k + 1, i, l0, l1 =>
    if i < s0 then do
      throwIf (decide (l0.length ≤ i))
      let x ← leaf i
      loadLoop s0 r leaf k (i + 1) (l0.set i x) l1
    else do
      throwIf (decide (l1.length ≤ i - r))
      let x ← leaf i
      loadLoop s0 r leaf k (i + 1) l0 (l1.set (i - r) x)

/-- One iteration of `upstream`, PlainAggTree.cpp 125-158: entry `i` of the parent level is written for all
`i < child.size() / 2`, the other entries stay. -/
def upLevel (d : Dir V) (child parent : List (V × Bool)) : Res (List (V × Bool)) := do
  let new ← mapRes (fun i => do
    let a ← rd child (2 * i)
    let b ← rd child (2 * i + 1)
    .ok (d.up a b)) (List.range (child.length / 2))
  if new.length ≤ parent.length then .ok (new ++ parent.drop new.length) else .error .ub

/-- `upstream`: the levels above `child`. The result is all levels from `child` on. -/
def upFrom (d : Dir V) (child : List (V × Bool)) : List (List (V × Bool)) → Res (List (List (V × Bool)))
  | [] => .ok [child]
  | p :: ps => do
    let p ← upLevel d child p
    let ls ← upFrom d p ps
    .ok (child :: ls)

/-- One iteration of `downstream`, PlainAggTree.cpp 169-211. An entry without a partner keeps its initial value. -/
def downLevel (d : Dir V) (zero : V) (parent : List V) (child : List (V × Bool)) : Res (List V) := do
  let new ← mapRes (fun i => do
    let v ← rd parent i
    let a ← rd child (2 * i)
    let b ← rd child (2 * i + 1)
    .ok (d.down v a b)) (List.range (child.length / 2))
  .ok (new.flatMap (fun p => [p.1, p.2]) ++ List.replicate (child.length % 2) zero)

/-- `downstream`, PlainAggTree.cpp 163-212, on the levels from the leaves to the root. -/
def downFrom (d : Dir V) (zero : V) : List (List (V × Bool)) → Res (List (List V))
  | [] => .error .ub
  | [root] => .ok [root.map (·.1)]
  | c :: p :: ps => do
    let ds ← downFrom d zero (p :: ps)
    let parent ← rd ds 0
    let new ← downLevel d zero parent c
    .ok (new :: ds)

/-- `loadLeaves`, `upstream` and `downstream` for one half: the levels of both passes. -/
def buildHalf (p : Params) (d : Dir V) (zero : V) (leaf : Nat → Res (V × Bool)) :
    Res (List (List (V × Bool)) × List (List V)) := do
  let init := p.sizes.map fun s => List.replicate s (zero, false)
  let l0 ← rd init 0
  let l1 ← rd init 1
  let (l0, l1) ← loadLoop (p.sizes.headD 0) p.r leaf p.n16 0 l0 l1
  let ups ← upFrom d l0 (l1 :: init.drop 2)
  let downs ← downFrom d zero ups
  .ok (ups, downs)

/-- Control bit and downstream value of leaf `i`, PlainAggTree.cpp 224-227. -/
def leafOf (p : Params) (t : List (List (V × Bool)) × List (List V)) (i : Nat) : Res (V × Bool) := do
  let q := if i < p.sizes.headD 0 then 0 else 1
  let w := if i < p.sizes.headD 0 then i else i - p.r
  let u ← rd t.1 q
  let a ← rd u w
  let dl ← rd t.2 q
  let v ← rd dl w
  .ok (v, a.2)

/-- The loop of `leaves`, PlainAggTree.cpp 222-246, that computes `mPre`, `mSuf`, `mFull`. -/
def results (p : Params) (op : V → V → V) (xs : List V) (pre suf : List (List (V × Bool)) × List (List V)) :
    Res (List (V × V × V)) :=
  mapRes (fun i => do
    let a ← leafOf p pre i
    let b ← leafOf p suf i
    let x ← rd xs i
    let mp := if a.2 then op a.1 x else x
    let ms := if b.2 then op x b.1 else x
    let mf := if a.2 then mp else x
    let mf := if b.2 then op mf b.1 else mf
    .ok (mp, ms, mf)) (List.range xs.length)

/-- `expPre`, PlainAggTree.cpp 229, from row `i` on; `prev` is `expPre[i-1]`, which does not exist for the first row. -/
def expPre (op : V → V → V) : Option V → List V → List Bool → Res (List V)
  | _, [], _ => .ok []
  | prev, x :: xs, c => do
    let b ← rd c 0
    let y ← (match b, prev with
      | true, some v => .ok (op v x)
      | true, none => .error .ub
      | false, _ => .ok x : Res V)
    let ys ← expPre op (some y) xs c.tail
    .ok (y :: ys)

/-- `expSuf`, PlainAggTree.cpp 232-234; here `c` are the control bits from the row after the first on. -/
def expSuf (op : V → V → V) : List V → List Bool → Res (List V)
  | [], _ => .ok []
  | [x], _ => .ok [x]
  | x :: xs, c => do
    let ys ← expSuf op xs c.tail
    let b ← rd c 0
    let y ← rd ys 0
    .ok ((if b then op x y else x) :: ys)

/-- `PTree::init`, PlainAggTree.cpp 262-276: the results for prefix, suffix and full aggregation. The code compares
the first two with a direct computation and throws if they differ. -/
def pTree [DecidableEq V] (op : V → V → V) (zero : V) (xs : List V) (c : List Bool) : Res (List (V × V × V)) := do
  let p ← computeTreeSizes xs.length
  let pre ← buildHalf p (prefixDir op) zero (prefixLeaf zero xs c)
  let suf ← buildHalf p (suffixDir op) zero (suffixLeaf zero xs c)
  let ep ← expPre op none xs c
  let es ← expSuf op xs c.tail
  let res ← results p op xs pre suf
  throwIf (decide (res.map (·.1) ≠ ep))
  throwIf (decide (res.map (·.2.1) ≠ es))
  .ok res

end Agg
end SecJoin
