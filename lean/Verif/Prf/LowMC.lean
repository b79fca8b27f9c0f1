import Verif.Basic
import Verif.GMW.Inline
/-!
# The block cipher LowMC

Model of `/repo/secure-join/Prf/LowMC.h`. The template parameters (number of boxes, block size `n`, key size `k`, number of
rounds) are arguments. A `std::bitset<n>` is a `BitVec n`, a matrix is the list of its rows. Printing is left out.
-/
namespace SecJoin
namespace LowMC

/-- `std::vector<block_type>` used as a matrix: its rows. -/
abbrev Mtx (n : Nat) := List (BitVec n)

/-- `b[i] = v` for a `std::bitset`. All uses are within the bitset. -/
def setBit (x : BitVec n) (i : Nat) (v : Bool) : BitVec n :=
  if v then x ||| BitVec.twoPow n i else x &&& ~~~BitVec.twoPow n i

/-- `std::bitset::count`. -/
def count (x : BitVec n) : Nat := ((List.range n).filter x.getLsbD).length

/-! ## The cipher -/

/-- `Sbox`, lines 293-294. -/
def sbox : List Nat := [0, 1, 3, 6, 7, 4, 5, 2]

/-- `invSbox`, lines 295-296. -/
def invSbox : List Nat := [0, 1, 7, 2, 5, 6, 3, 4]

/-- `Substitution` and `invSubstitution`, lines 315-342; they differ in the table only. -/
def substitute (box : List Nat) (boxes : Nat) (m : BitVec n) : Res (BitVec n) :=
  (List.range' 1 boxes).foldlM (fun temp i => do
    let s ← rd box ((m >>> (3 * (boxes - i))) &&& BitVec.ofNat n 7).toNat
    .ok ((temp <<< 3) ^^^ BitVec.ofNat n s)) (m >>> (3 * boxes))

/-- `MultiplyWithGF2Matrix`, lines 345-353. -/
def mul (n : Nat) (M : Mtx k) (m : BitVec k) : Res (BitVec n) :=
  (List.range n).foldlM (fun t i => do
    let row ← rd M i
    .ok (setBit t i (count (m &&& row) % 2 == 1))) 0

/-- The members of `LowMC2`, lines 289-309, and its template parameters `numofboxes` and `rounds`. -/
structure Inst (n k : Nat) where
  boxes : Nat
  rounds : Nat
  invertable : Bool
  lin : List (Mtx n)
  invLin : List (Mtx n)
  consts : List (BitVec n)
  keyMats : List (Mtx k)
  roundKeys : List (BitVec n)

/-- `encrypt`, lines 58-84. -/
def encrypt (c : Inst n k) (msg : BitVec n) : Res (BitVec n) := do
  let k0 ← rd c.roundKeys 0
  (List.range' 1 c.rounds).foldlM (fun s r => do
    let s ← substitute sbox c.boxes s
    let M ← rd c.lin (r - 1)
    let s ← mul n M s
    let rc ← rd c.consts (r - 1)
    let rk ← rd c.roundKeys r
    .ok (s ^^^ rc ^^^ rk)) (msg ^^^ k0)

/-- `decrypt`, lines 87-101. -/
def decrypt (c : Inst n k) (msg : BitVec n) : Res (BitVec n) := do
  throwIf (c.invertable == false)
  let s ← (List.range' 1 c.rounds).reverse.foldlM (fun s r => do
    let rk ← rd c.roundKeys r
    let rc ← rd c.consts (r - 1)
    let M ← rd c.invLin (r - 1)
    let s ← mul n M (s ^^^ rk ^^^ rc)
    substitute invSbox c.boxes s) msg
  let k0 ← rd c.roundKeys 0
  .ok (s ^^^ k0)

/-- `keyschedule`, lines 356-363. -/
def keySchedule (c : Inst n k) (key : BitVec k) : Res (Inst n k) := do
  let rks ← mapRes (fun r => do
    let M ← rd c.keyMats r
    mul n M key) (List.range (c.rounds + 1))
  .ok { c with roundKeys := rks }

/-! ## Matrices -/

/-- `while (r < mat.size() && !mat[r][col]) ++r;`, lines 603-605 and 651-653: the row found, if any. -/
def findRow (mat : Mtx n) (col r : Nat) : Option Nat :=
  (List.range' r (mat.length - r)).find? fun i => (mat.getD i 0).getLsbD col

/-- The exchange of two rows, lines 610-615 and 658-660. -/
def swapRows (mat : Mtx n) (i j : Nat) : Res (Mtx n) := do
  let x ← rd mat i
  let y ← rd mat j
  let mat ← wr mat i y
  wr mat j x

/-- `mat[i] ^= mat[j]`. -/
def xorRow (mat : Mtx n) (i j : Nat) : Res (Mtx n) := do
  let x ← rd mat i
  let y ← rd mat j
  wr mat i (x ^^^ y)

/-- The loop of lines 663-665. -/
def clearBelow (mat : Mtx n) (row col : Nat) : Res (Mtx n) :=
  (List.range' (row + 1) (mat.length - (row + 1))).foldlM (fun mat i => do
    let x ← rd mat i
    if x.getLsbD col then xorRow mat i row else .ok mat) mat

/-- One column of `rank_of_Matrix`, lines 649-666. -/
def rankStep (mat : Mtx n) (row col : Nat) : Res (Mtx n × Nat) := do
  let p ← rd mat row
  if p.getLsbD col then do
    let mat ← clearBelow mat row col
    .ok (mat, row + 1)
  else
    match findRow mat col row with
    | none => .ok (mat, row)
    | some r => do
      let mat ← swapRows mat row r
      let mat ← clearBelow mat row col
      .ok (mat, row + 1)

/-- The loop over the columns `size - col` of `rank_of_Matrix`, lines 648-668, with its `break`. After a column without pivot
`continue` skips the test, but then fewer rows than columns have been found and the test would fail. -/
def rankLoop : List Nat → Mtx n → Nat → Res Nat
  | [], _, row => .ok row
  | col :: cols, mat, row => do
    let (mat, row) ← rankStep mat row (n - col)
    if row == n then .ok row else rankLoop cols mat row

/-- `rank_of_Matrix`, lines 640-670. -/
def rankOf (mat : Mtx n) : Res Nat := do
  let _ ← rd mat 0
  rankLoop (List.range' 1 n) mat 0

/-- The loop of lines 618-623. -/
def clearBelow2 (mat inv : Mtx n) (row col : Nat) : Res (Mtx n × Mtx n) :=
  (List.range' (row + 1) (mat.length - (row + 1))).foldlM (fun (mi : Mtx n × Mtx n) i => do
    let x ← rd mi.1 i
    if x.getLsbD col then do
      let mat ← xorRow mi.1 i row
      let inv ← xorRow mi.2 i row
      .ok (mat, inv)
    else .ok mi) (mat, inv)

/-- One column of the first phase of `invert_Matrix`, lines 601-624. -/
def invStep (st : Mtx n × Mtx n × Nat) (col : Nat) : Res (Mtx n × Mtx n × Nat) := do
  let (mat, inv, row) := st
  let p ← rd mat row
  if p.getLsbD col then do
    let (mat, inv) ← clearBelow2 mat inv row col
    .ok (mat, inv, row + 1)
  else
    match findRow mat col (row + 1) with
    | none => .ok (mat, inv, row)
    | some r => do
      let mat ← swapRows mat row r
      let inv ← swapRows inv row r
      let (mat, inv) ← clearBelow2 mat inv row col
      .ok (mat, inv, row + 1)

/-- One column of the second phase of `invert_Matrix`, lines 629-634, for `col - 1 = c`. -/
def clearAbove (mi : Mtx n × Mtx n) (c : Nat) : Res (Mtx n × Mtx n) :=
  (List.range c).foldlM (fun (mi : Mtx n × Mtx n) r => do
    let x ← rd mi.1 r
    if x.getLsbD c then do
      let mat ← xorRow mi.1 r c
      let inv ← xorRow mi.2 r c
      .ok (mat, inv)
    else .ok mi) mi

/-- `invert_Matrix`, lines 586-638. -/
def invert (mat : Mtx n) : Res (Mtx n) := do
  let _ ← rd mat 0
  let inv := (List.range n).map fun i => setBit (0 : BitVec n) i true
  let (mat, inv, _) ← (List.range n).foldlM invStep (mat, inv, 0)
  let (_, inv) ← (List.range n).reverse.foldlM clearAbove (mat, inv)
  .ok inv

/-! ## Matrices in files -/

/-- `in.read(&c, 1)`: at the end of the file `c` keeps its value. -/
def read1 (s : List (BitVec 8)) (c : BitVec 8) : List (BitVec 8) × BitVec 8 :=
  match s with
  | [] => ([], c)
  | b :: t => (t, b)

/-- The inner loop of `loadMatrix`, lines 374-383. -/
def loadRow (k : Nat) (s : List (BitVec 8)) (c : BitVec 8) : Res (BitVec k × List (BitVec 8) × BitVec 8) :=
  (List.range k).foldlM (fun (st : BitVec k × List (BitVec 8) × BitVec 8) j =>
    let (row, s, c) := st
    let (s, c) := read1 s c
    if c == 48#8 then .ok (setBit row j false, s, c)
    else if c == 49#8 then .ok (setBit row j true, s, c)
    else .error .throw) (0, s, c)

/-- `loadMatrix`, lines 366-390: `n` rows of `k` bits. `c` is the value of the uninitialised `char c`. -/
def loadMatrix (n k : Nat) (s : List (BitVec 8)) (c : BitVec 8) : Res (Mtx k) := do
  let (mat, _, _) ← (List.range n).foldlM (fun (st : Mtx k × List (BitVec 8) × BitVec 8) _ => do
    let (mat, s, c) := st
    let (row, s, c) ← loadRow k s c
    let (s, c) := read1 s c
    throwIf (c != 10#8)
    .ok (mat ++ [row], s, c)) ([], s, c)
  .ok mat

/-- `writeMatrix`, lines 392-407. -/
def writeMatrix (mat : Mtx k) : List (BitVec 8) :=
  mat.flatMap fun row => (List.range k).map (fun j => if row.getLsbD j then 49#8 else 48#8) ++ [10#8]

/-! ## Setting up an instance -/

/-- What `instantiate_LowMC` takes from outside: the files (`none`: not there), the matrices drawn from the generator in each
round, the round constants drawn, and the uninitialised `char` of `loadMatrix`. Simplified: in the code all draws come one after
the other from one generator with a fixed seed; here they are arbitrary. -/
structure Source (n k : Nat) where
  linFile : Nat → Option (List (BitVec 8))
  linDrawn : Nat → List (Nat → BitVec n)
  keyFile : Nat → Option (List (BitVec 8))
  keyDrawn : Nat → List (Nat → BitVec k)
  const : Nat → BitVec n
  junk : BitVec 8

/-- The loops of lines 441-447 and 497-503: matrices of `n` rows are drawn until the rank is right. -/
def drawUntil (n : Nat) (good : Nat → Bool) : List (Nat → BitVec k) → Res (Mtx k)
  | [] => .error .diverge
  | d :: ds => do
    let mat := (List.range n).map d
    let rank ← rankOf mat
    if good rank then .ok mat else drawUntil n good ds

/-- One matrix, lines 421-464 and 479-518. -/
def oneMatrix (n k : Nat) (invertable : Bool) (file : Option (List (BitVec 8))) (drawn : List (Nat → BitVec k)) (junk : BitVec 8)
    (good : Nat → Bool) : Res (Mtx k) :=
  if invertable == false then
    match drawn with
    | [] => .error .diverge
    | d :: _ => .ok ((List.range n).map d)
  else
    match file with
    | none => drawUntil n good drawn
    | some s => do
      let mat ← loadMatrix n k s junk
      let rank ← rankOf mat
      throwIf (!good rank)
      .ok mat

/-- The constructor with `instantiate_LowMC`, lines 51-56 and 412-523. -/
def create (n k boxes rounds : Nat) (invertable : Bool) (src : Source n k) (key : BitVec k) : Res (Inst n k) := do
  let lin ← mapRes (fun r => oneMatrix n n invertable (src.linFile r) (src.linDrawn r) src.junk (· == n)) (List.range rounds)
  let inv ← mapRes invert (if invertable then lin else [])
  let keyMats ← mapRes (fun r => oneMatrix n k invertable (src.keyFile r) (src.keyDrawn r) src.junk (fun x => !decide (x < min n k)))
    (List.range (rounds + 1))
  keySchedule ⟨boxes, rounds, invertable, lin, inv, (List.range rounds).map src.const, keyMats, []⟩ key

/-! ## The circuit

The circuit library is not part of the repository. Of `addGate` and `addInvert` the following is modelled: an inverted wire is
only flagged, gates reading it change their type, and a gate writing to a wire removes its flag. -/

/-- The gate type for an inverted first input. -/
def flipA : Gmw.GateType → Gmw.GateType
  | .zero => .zero | .nor => .nbAnd | .naAnd => .and | .na => .a | .nbAnd => .nor | .nb => .nb | .xor => .nxor | .nand => .nbOr
  | .and => .naAnd | .nxor => .xor | .a => .na | .nbOr => .nand | .b => .b | .naOr => .or | .or => .naOr | .one => .one

/-- The gate type for an inverted second input. -/
def flipB : Gmw.GateType → Gmw.GateType
  | .zero => .zero | .nor => .naAnd | .naAnd => .nor | .na => .na | .nbAnd => .and | .nb => .b | .xor => .nxor | .nand => .naOr
  | .and => .nbAnd | .nxor => .xor | .a => .a | .nbOr => .or | .b => .nb | .naOr => .nand | .or => .nbOr | .one => .one

/-- A circuit while it is built: its gates and the wires flagged as inverted. -/
structure Builder where
  gates : List Gmw.Gate
  inv : Nat → Bool

/-- `BetaCircuit::addGate`. -/
def Builder.addGate (c : Builder) (a b : Nat) (t : Gmw.GateType) (o : Nat) : Builder :=
  let t := if c.inv a then flipA t else t
  let t := if c.inv b then flipB t else t
  ⟨c.gates ++ [⟨a, b, o, t⟩], fun w => if w = o then false else c.inv w⟩

/-- `BetaCircuit::addInvert`. -/
def Builder.addInvert (c : Builder) (w : Nat) : Builder := ⟨c.gates, fun x => if x = w then !c.inv x else c.inv x⟩

/-- The wires of `to_enc_circuit`, lines 204-222: message, round keys, state, `temp` and `temp2`, allocated one after the other
in this order, each with `n` wires apart from `temp2` with one. -/
def wMsg (_n i : Nat) : Nat := i
def wKey (n r i : Nat) : Nat := n * (r + 1) + i
def wState (n rounds i : Nat) : Nat := n * (rounds + 2) + i
def wTemp (n rounds i : Nat) : Nat := n * (rounds + 3) + i
def wTemp2 (n rounds : Nat) : Nat := n * (rounds + 4)

/-- One box, lines 124-147. -/
def boxGates (n rounds : Nat) (cir : Builder) (i : Nat) : Builder :=
  let c := wState n rounds (i * 3 + 0)
  let b := wState n rounds (i * 3 + 1)
  let a := wState n rounds (i * 3 + 2)
  let aa := wTemp n rounds (i * 3 + 0)
  let bb := wTemp n rounds (i * 3 + 1)
  let cc := wTemp n rounds (i * 3 + 2)
  let a_b := wTemp2 n rounds
  let cir := cir.addGate a b .xor a_b
  let cir := cir.addGate b c .and aa
  let cir := cir.addGate a c .and bb
  let cir := cir.addGate a b .and cc
  let cir := cir.addGate cc c .xor cc
  let cir := cir.addGate a aa .xor a
  let cir := cir.addGate a_b bb .xor b
  cir.addGate cc a_b .xor c

/-- `while (row[++j] == 0);` starting before `j`, lines 159 and 162. Without a further one the loop reads past the bitset. -/
def nextOne (row : BitVec n) (j : Nat) : Res Nat :=
  match (List.range' j (n - j)).find? row.getLsbD with
  | some i => .ok i
  | none => .error .ub

/-- One row of the linear layer, lines 154-173. -/
def rowGates (rounds : Nat) (M : Mtx n) (cir : Builder) (i : Nat) : Res Builder := do
  let t := wTemp n rounds i
  let row ← rd M i
  let first ← nextOne row 0
  let second ← nextOne row (first + 1)
  let cir := cir.addGate (wState n rounds first) (wState n rounds second) .xor t
  .ok ((List.range' (second + 1) (n - (second + 1))).foldl (fun cir j =>
    if row.getLsbD j then cir.addGate t (wState n rounds j) .xor t else cir) cir)

/-- One round, lines 121-189. -/
def roundGates (c : Inst n k) (cir : Builder) (r : Nat) : Res Builder := do
  let cir := (List.range c.boxes).foldl (boxGates n c.rounds) cir
  let M ← rd c.lin r
  let cir ← (List.range n).foldlM (rowGates c.rounds M) cir
  let rc ← rd c.consts r
  let cir := (List.range n).foldl (fun cir i => if rc.getLsbD i then cir.addInvert (wTemp n c.rounds i) else cir) cir
  .ok ((List.range n).foldl (fun cir i => cir.addGate (wTemp n c.rounds i) (wKey n (r + 1) i) .xor (wState n c.rounds i)) cir)

/-- `add_lowmc_gates`, lines 112-193. -/
def addGates (c : Inst n k) (cir : Builder) : Res Builder :=
  (List.range c.rounds).foldlM (roundGates c)
    ((List.range n).foldl (fun cir i => cir.addGate (wMsg n i) (wKey n 0 i) .xor (wState n c.rounds i)) cir)

/-- `to_enc_circuit`, lines 202-226. -/
def toEncCircuit (c : Inst n k) : Res Gmw.Circuit := do
  let b ← addGates c ⟨[], fun _ => false⟩
  .ok ⟨(List.range n).map (wMsg n) :: (List.range (c.rounds + 1)).map fun r => (List.range n).map (wKey n r),
    [(List.range n).map (wState n c.rounds)], n * (c.rounds + 4) + 1, b.gates, fun w => if b.inv w then .inverted else .plain⟩

end LowMC
end SecJoin
