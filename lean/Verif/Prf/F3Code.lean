import Verif.Basic
import Verif.Prf.Mod3
/-!
# The accumulate-permute code modulo three

Model of `/repo/secure-join/Prf/F3LinearCode.h`. The permutations are lists of indices; those made by `init` are drawn at random.
-/
namespace SecJoin
namespace F3

open Mod3 (Block add)

/-- `F3AccPermCode`. -/
structure Code where
  n : Nat
  k : Nat
  perms : List (List Nat)

/-- `init(k, n, p, seed)`, F3LinearCode.h 29-44. `logn` is `oc::log2ceil(n)` and `draw` the permutations of `k` elements. -/
def init (k n p logn : Nat) (draw : Nat → List Nat) : Res Code := do
  throwIf (decide (k ≤ n))
  let p := if p = 0 then max 7 logn else p
  .ok ⟨n, k, (List.range p).map draw⟩

/-- A loop `for (i = 1; i < k; ++i)` with a body that may fail. -/
def forFrom1 {σ : Type} (k : Nat) (body : σ → Nat → Res σ) (s : σ) : Res σ := (List.range (k - 1)).foldlM (fun s i => body s (i + 1)) s

/-! ## Encoding of one vector -/

/-- `in[d] = (in[d] + in[s]) % 3`. -/
def addElt (x : List Nat) (d s : Nat) : Res (List Nat) := do
  let a ← rd x d
  let b ← rd x s
  wr x d ((a + b) % 3)

/-- The body of the loop over the permutations, F3LinearCode.h 57-67. -/
def encPass (k : Nat) (x : List Nat) (p : List Nat) : Res (List Nat) :=
  forFrom1 k (fun x i => do
    let pi ← rd p i
    let pi1 ← rd p (i - 1)
    addElt x pi pi1) x

/-- `encode(in, out)`, F3LinearCode.h 46-72, with an output of `m` elements: `in` is overwritten, too, and given back. Elements are
not bounded here, sums of reduced elements do not overflow. -/
def encode (c : Code) (x : List Nat) (m : Nat) : Res (List Nat × List Nat) := do
  throwIf (x.length != c.k)
  throwIf (m != c.n)
  let x ← forFrom1 c.k (fun x i => addElt x i (i - 1)) x
  let x ← c.perms.dropLast.foldlM (encPass c.k) x
  match c.perms.getLast? with
  | none => .error .ub
  | some l =>
    let out ← mapRes (fun i => do rd x (← rd l i)) (List.range c.n)
    .ok (x, out)

/-! ## The matrix -/

/-- `addRow(d, s)`, F3LinearCode.h 151-157. -/
def addRow (st : List (List Nat)) (d s : Nat) : Res (List (List Nat)) := do
  let a ← rd st d
  let b ← rd st s
  wr st d (List.zipWith (fun x y => (x + y) % 3) a b)

/-- The body of the loop over the permutations, F3LinearCode.h 166-171. -/
def matPass (k : Nat) (st : List (List Nat)) (p : List Nat) : Res (List (List Nat)) :=
  forFrom1 k (fun st i => do
    let pi ← rd p i
    let pi1 ← rd p (i - 1)
    addRow st pi pi1) st

/-- `getMatrix()`, F3LinearCode.h 145-183. -/
def getMatrix (c : Code) : Res (List (List Nat)) := do
  let st := (List.range c.k).map fun i => (List.range c.k).map fun j => if i = j then 1 else 0
  let st ← forFrom1 c.k (fun st i => addRow st i (i - 1)) st
  let st ← c.perms.dropLast.foldlM (matPass c.k) st
  match c.perms.getLast? with
  | none => .error .ub
  | some l => mapRes (fun i => do rd st (← rd l i)) (List.range c.n)

/-! ## Bit-sliced encoding -/

/-- `mod3Add(msb[d].subspan(begin, s), lsb[d].subspan(begin, s), msb[r]..., lsb[r]...)`, mod3.h 153-180: in the columns
`[begin, begin + s)` row `r` is added to row `d`. The pointers are declared not to alias. -/
def addSlice (begin s : Nat) (st : List (List (Block × Block))) (d r : Nat) : Res (List (List (Block × Block))) := do
  let a ← rd st d
  let b ← rd st r
  if d = r then .error .ub
  else wr st d ((List.range a.length).map fun j =>
    if begin ≤ j ∧ j < begin + s then add (a.getD j (0, 0)).1 (a.getD j (0, 0)).2 (b.getD j (0, 0)).1 (b.getD j (0, 0)).2 else a.getD j (0, 0))

/-- The body of the loop over the permutations, F3LinearCode.h 114-129. -/
def slicePass (k begin s : Nat) (st : List (List (Block × Block))) (p : List Nat) : Res (List (List (Block × Block))) :=
  forFrom1 k (fun st i => do
    let pi ← rd p i
    let pi1 ← rd p (i - 1)
    addSlice begin s st pi pi1) st

/-- The copies of one batch, F3LinearCode.h 131-141, into row `i` of the output. -/
def copySlice (begin s : Nat) (out src : List (Block × Block)) : List (Block × Block) :=
  (List.range out.length).map fun j => if begin ≤ j ∧ j < begin + s then src.getD j (0, 0) else out.getD j (0, 0)

/-- One batch of columns, F3LinearCode.h 97-142. -/
def sliceBatch (c : Code) (begin s : Nat) (st out : List (List (Block × Block))) :
    Res (List (List (Block × Block)) × List (List (Block × Block))) := do
  let st ← forFrom1 c.k (fun st i => addSlice begin s st i (i - 1)) st
  let st ← c.perms.dropLast.foldlM (slicePass c.k begin s) st
  match c.perms.getLast? with
  | none => .error .ub
  | some l =>
    let out ← mapRes (fun i => do
      let src ← rd st (← rd l i)
      let o ← rd out i
      .ok (copySlice begin s o src)) (List.range c.n)
    .ok (st, out)

/-- `encode(msb, lsb, outMsb, outLsb, batchSize)`, F3LinearCode.h 74-143. `st` are the rows of `(msb, lsb)` and `out` those of
`(outMsb, outLsb)`, each with `len` columns (the checks that the high and low parts have the same shape are left out). Batches of
size zero divide by zero. -/
def encodeSlices (c : Code) (len : Nat) (st out : List (List (Block × Block))) (batch : Nat) :
    Res (List (List (Block × Block)) × List (List (Block × Block))) := do
  throwIf (st.length != c.k)
  throwIf (out.length != c.n)
  throwIf (out.any fun r => r.length != len)
  if batch = 0 then .error .ub
  else
    (List.range (divCeil len batch)).foldlM (init := (st, out)) fun so b =>
      sliceBatch c (b * batch) (min batch (len - b * batch)) so.1 so.2

end F3
end SecJoin
