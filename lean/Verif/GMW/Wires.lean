import Verif.GMW.Model
import Mathlib.Logic.Function.Basic
/-!
# The memory of the wires: inputs, outputs and mapped buffers of GMW/Gmw.{h,cpp}

Memory is a set of regions of blocks, a pointer is a region and an offset in blocks. Every allocation is a region of its own and is
aligned to a block. A region that is allocated without initialisation has arbitrary contents. `oc::transpose` is part of a library
outside of the repository: it moves bit `j` of row `r` to bit `r` of row `j` and may change the bits of the output beyond the last row
of the input in an arbitrary way. At least one instance is evaluated (`mN > 0`): an empty allocation has a null pointer, which is not
modelled.
-/
namespace SecJoin
namespace Gmw
namespace Wires

/-- A `block*`. -/
structure Ptr where
  reg : Nat
  off : Nat
deriving DecidableEq

/-- What is modelled of `TBinMatrix`, Util/Matrix.h 196-260: where its bytes are, the number of rows of `mData` (`bitsPerEntry()`), the
bytes of each row (`bytesPerRow()`) and `mEntryCount`. -/
structure TMat where
  reg : Nat
  bits : Nat
  cols : Nat
  entries : Nat
deriving DecidableEq

/-- The fields of `Gmw` that describe wires, Gmw.h 54-70: `mN`, `mCir.mWireCount`, `mCir.mInputs`, `mCir.mOutputs`, `mWords`,
`mRemainingMappings`; and the memory: the contents of each region and the first region that is free. -/
structure St where
  n : Nat
  wires : Nat
  ins : List (List Nat)
  outs : List (List Nat)
  words : Nat → Option Ptr
  remaining : Nat
  heap : Nat → List Block
  next : Nat

/-- `Gmw::init`, Gmw.cpp 14-39, as far as the wires are concerned. -/
def init (n wires : Nat) (ins outs : List (List Nat)) (heap : Nat → List Block) (next : Nat) : St :=
  ⟨n, wires, ins, outs, fun _ => none, wires, heap, next⟩

/-- `mN128`. -/
def St.w (s : St) : Nat := width s.n

/-- `map`, Gmw.h 281-293. -/
def map (s : St) (wire : Nat) (p : Ptr) : Res St := do
  throwIf (decide (s.wires ≤ wire))
  throwIf (s.words wire).isSome
  .ok { s with words := Function.update s.words wire (some p), remaining := s.remaining - 1 }

/-- `map` for consecutive rows of a matrix: the loops in Gmw.h 152-153 and 170-171, and in Gmw.cpp 144-148. -/
def mapRows (reg stride : Nat) : List Nat → Nat → St → Res St
  | [], _, s => .ok s
  | x :: xs, off, s => do
    let s ← map s x ⟨reg, off⟩
    mapRows reg stride xs (off + stride) s

/-- `mapInput` and `mapOutput`, Gmw.h 141-172, for the inputs or the outputs. -/
def mapBundle (bundles : List (List Nat)) (s : St) (i : Nat) (d : TMat) : Res St := do
  throwIf (decide (bundles.length ≤ i))
  let b ← rd bundles i
  throwIf (b.length != d.bits)
  throwIf (s.n != d.entries)
  throwIf (d.cols % 16 != 0)
  mapRows d.reg (d.cols / 16) b 0 s

/-- An allocation of `len` blocks that are not initialised. -/
def alloc (junk : Nat → Nat → Block) (s : St) (len : Nat) : Nat × St :=
  (s.next, { s with heap := Function.update s.heap s.next ((List.range len).map (junk s.next)), next := s.next + 1 })

/-- Gmw.cpp 117-121: the wires of a bundle must be consecutive. -/
def consecutive : List Nat → Bool
  | x :: y :: l => x + 1 == y && consecutive (y :: l)
  | _ => true

/-- Gmw.cpp 125-130: so must be their memory. -/
def contiguous (s : St) : List Nat → Res Bool
  | x :: y :: l => do
    if s.wires ≤ x ∨ s.wires ≤ y then .error .ub
    else
      match s.words x, s.words y with
      | some p, some q => if q = ⟨p.reg, p.off + s.w⟩ then contiguous s (y :: l) else .ok false
      | _, _ => .ok false
  | _ => .ok true

/-- `getMemView`, Gmw.cpp 114-153: the first block of the bundle's memory, which is allocated if the first wire has none. A bundle
without wires is read out of bounds. Moving `mMem` does not move the memory, so that the check in 140-141 passes. -/
def memView (junk : Nat → Nat → Block) (s : St) (b : List Nat) : Res (Ptr × St) := do
  throwIf (!consecutive b)
  match b with
  | [] => .error .ub
  | x :: _ =>
    if s.wires ≤ x then .error .ub
    else
      match s.words x with
      | some p => do
        let c ← contiguous s b
        throwIf (!c)
        .ok (p, s)
      | none => do
        let (reg, s) := alloc junk s (b.length * s.w)
        let s ← mapRows reg s.w b 0 s
        .ok (⟨reg, 0⟩, s)

/-- Writing a word of `mN128` blocks; out of bounds is undefined behaviour. -/
def store (s : St) (p : Ptr) (v : Word) : Res St :=
  if p.off + v.length ≤ (s.heap p.reg).length then
    .ok { s with heap := Function.update s.heap p.reg ((s.heap p.reg).take p.off ++ v ++ (s.heap p.reg).drop (p.off + v.length)) }
  else .error .ub

/-- Reading a word of `mN128` blocks. -/
def load (s : St) (p : Ptr) : Res Word :=
  if p.off + s.w ≤ (s.heap p.reg).length then .ok (((s.heap p.reg).drop p.off).take s.w) else .error .ub

/-- Writing the rows of a view of `m` rows starting at `p`. -/
def storeRows (f : Nat → Word) (p : Ptr) : Nat → Nat → St → Res St
  | _, 0, s => .ok s
  | j, m + 1, s => do
    let s ← store s ⟨p.reg, p.off + j * s.w⟩ (f j)
    storeRows f p (j + 1) m s

/-- Bit `j` of a row of bytes. -/
def rowBit (row : List (BitVec 8)) (j : Nat) : Bool := (row.getD (j / 8) 0).getLsbD (j % 8)

/-- The block with bit `f t` at position `t`. -/
def mkBlock (f : Nat → Bool) : Block := (BitVec.ofBoolListLE ((List.range 128).map f)).cast (by simp)

/-- Row `j` of the transposed input: one bit for each row of the input. -/
def column (w : Nat) (pad : Nat → Nat → Bool) (rows : List (List (BitVec 8))) (j : Nat) : Word :=
  (List.range w).map fun b => mkBlock fun t =>
    if b * 128 + t < rows.length then rowBit (rows.getD (b * 128 + t) []) j else pad j (b * 128 + t)

/-- `implSetInput` with `getInputView`, Gmw.cpp 42-61 and 87-95. `cols` are the bytes of each row of the input, `align` is `sizeof(T)`. -/
def setInput (junk : Nat → Nat → Block) (pad : Nat → Nat → Bool) (s : St) (i : Nat) (rows : List (List (BitVec 8))) (cols align : Nat) : Res St := do
  throwIf (decide (s.ins.length ≤ i))
  let b ← rd s.ins i
  let (p, s) ← memView junk s b
  throwIf ((b.length + align * 8 - 1) / (align * 8) != cols / align)
  throwIf (rows.length != s.n)
  storeRows (column s.w pad rows) p 0 b.length s

/-- `setZeroInput`, Gmw.cpp 64-68. -/
def setZero (junk : Nat → Nat → Block) (s : St) (i : Nat) : Res St := do
  throwIf (decide (s.ins.length ≤ i))
  let b ← rd s.ins i
  let (p, s) ← memView junk s b
  storeRows (fun _ => List.replicate s.w 0) p 0 b.length s

/-- The calls between `init` and `run`. -/
inductive Op
  | setInput (i : Nat) (rows : List (List (BitVec 8))) (cols align : Nat)
  | setZero (i : Nat)
  | mapInput (i : Nat) (d : TMat)
  | mapOutput (i : Nat) (d : TMat)

def step (junk : Nat → Nat → Block) (pad : Nat → Nat → Bool) (s : St) : Op → Res St
  | .setInput i rows cols align => setInput junk pad s i rows cols align
  | .setZero i => setZero junk s i
  | .mapInput i d => mapBundle s.ins s i d
  | .mapOutput i d => mapBundle s.outs s i d

def steps (junk : Nat → Nat → Block) (pad : Nat → Nat → Bool) : List Op → St → Res St
  | [], s => .ok s
  | o :: os, s => do
    let s ← step junk pad s o
    steps junk pad os s

/-- Gmw.h 299-302: all input wires must have memory. -/
def inputsSet (s : St) : List Nat → Res Unit
  | [] => .ok ()
  | x :: xs => if s.wires ≤ x then .error .ub else do
    throwIf (s.words x).isNone
    inputsSet s xs

/-- Gmw.h 307-311: the wires without memory get the rows of a matrix of `rows` rows, in order. -/
def fillLoop (reg rows : Nat) : List Nat → Nat → St → Res St
  | [], _, s => .ok s
  | i :: is, j, s =>
    match s.words i with
    | some _ => fillLoop reg rows is j s
    | none => if j < rows then do
        let s ← map s i ⟨reg, j * s.w⟩
        fillLoop reg rows is (j + 1) s
      else .error .ub

/-- `finalizeMapping`, Gmw.h 297-315, called at the start of `run` (Gmw.cpp 237). -/
def finalize (junk : Nat → Nat → Block) (s : St) : Res St := do
  inputsSet s s.ins.flatten
  if s.remaining ≠ 0 then
    let (reg, s') := alloc junk s (s.remaining * s.w)
    fillLoop reg s.remaining (List.range s.wires) 0 s'
  else .ok s

/-- `run` writes the word of a wire through its pointer, Gmw.cpp 357-445, 467-493 and 705-856. -/
def setWire (s : St) (wire : Nat) (v : Word) : Res St :=
  match s.words wire with
  | some p => store s p v
  | none => .error .ub

/-- and reads it in the same way. -/
def getWire (s : St) (wire : Nat) : Res Word :=
  match s.words wire with
  | some p => load s p
  | none => .error .ub

/-- Reading the rows of a view of `m` rows starting at `p`. -/
def loadRows (s : St) (p : Ptr) : Nat → Nat → Res (List Word)
  | _, 0 => .ok []
  | j, m + 1 => do
    let v ← load s ⟨p.reg, p.off + j * s.w⟩
    let vs ← loadRows s p (j + 1) m
    .ok (v :: vs)

/-- `implGetOutput` with `getOutputView`, Gmw.cpp 70-85 and 97-112. The output has `rows` rows of `cols` bytes; the result is bit `j` of
row `r`. -/
def getOutput (junk : Nat → Nat → Block) (s : St) (i rows cols align : Nat) : Res (Nat → Nat → Bool) := do
  throwIf (decide (s.outs.length ≤ i))
  let b ← rd s.outs i
  let (p, s) ← memView junk s b
  throwIf ((b.length + align * 8 - 1) / (align * 8) != cols / align)
  throwIf (rows != s.n)
  let vs ← loadRows s p 0 b.length
  .ok fun r j => ((vs.getD j []).getD (r / 128) 0).getLsbD (r % 128)

/-- `getOutput(u64, BinMatrix&)`, Gmw.h 183-188: the check on the index is off by one. -/
def getOutputBin (junk : Nat → Nat → Block) (s : St) (i rows bits : Nat) : Res (Nat → Nat → Bool) := do
  throwIf (decide (s.outs.length < i))
  let b ← rd s.outs i
  throwIf (bits != b.length)
  getOutput junk s i rows (divCeil bits 8) 1

end Wires
end Gmw
end SecJoin
