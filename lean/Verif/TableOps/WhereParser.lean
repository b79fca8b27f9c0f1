import Verif.Table.Model
/-!
# Where clauses: TableOps/WhereParser.{h,cpp}

`WhereParser::parse` turns a clause (columns, literals and gates) into a boolean circuit. The builder of circuits
(`BetaCircuit`) and the arithmetic circuits (`BetaLibrary`) belong to a library outside of the repository. A circuit
is modelled as the list of the calls made to that library, and a call by what it does to the values of the wires;
`Lib` holds the functions computed by the arithmetic circuits. What is assumed of them is `Lib.Ok` in the file of the
properties: only operands of equal positive width are covered.
-/
namespace SecJoin
namespace WhereP

/-- The functions computed by the circuits of `BetaLibrary` used in WhereParser.cpp 174, 251, 278-280: `eq_build`,
`add_build` (the third argument is the width of the result), `lessThan_build` and `greaterThanEq_build` with
`TwosComplement`. Values are lists of bits, lowest first. -/
structure Lib where
  eq : List Bool → List Bool → Bool
  lt : List Bool → List Bool → Bool
  ge : List Bool → List Bool → Bool
  add : List Bool → List Bool → Nat → List Bool

/-- The calls made to the builder while parsing: `addConst`, `addInvert`, and the circuits of `BetaLibrary`. The
operand `c` of `add` is the first of `n` consecutive wires. -/
inductive Call
  | const (w : Nat) (b : Bool)
  | inv (w : Nat)
  | eq (a b : List Nat) (o : Nat)
  | and (a b o : Nat)
  | or (a b o : Nat)
  | xor (a b o : Nat)
  | add (a b : List Nat) (o n : Nat)
  | lt (a b : List Nat) (o : Nat)
  | ge (a b : List Nat) (o : Nat)

/-- A wire gets a value. -/
def upd (v : Nat → Bool) (w : Nat) (x : Bool) : Nat → Bool := fun i => if i = w then x else v i

/-- The effect of a call on the values of the wires. -/
def Call.run (lib : Lib) : Call → (Nat → Bool) → Nat → Bool
  | .const w b, v => upd v w b
  | .inv w, v => upd v w (!(v w))
  | .eq a b o, v => upd v o (lib.eq (a.map v) (b.map v))
  | .and a b o, v => upd v o (v a && v b)
  | .or a b o, v => upd v o (v a || v b)
  | .xor a b o, v => upd v o (v a ^^ v b)
  | .add a b o n, v => fun i =>
      if o ≤ i ∧ i < o + n then (lib.add (a.map v) (b.map v) n).getD (i - o) false else v i
  | .lt a b o, v => upd v o (lib.lt (a.map v) (b.map v))
  | .ge a b o, v => upd v o (lib.ge (a.map v) (b.map v))

def runCalls (lib : Lib) : List Call → (Nat → Bool) → Nat → Bool
  | [], v => v
  | c :: cs, v => runCalls lib cs (c.run lib v)

/-- `enum class ArrGateType`, WhereParser.h 14-24; the enumeration is read from a number, other values are possible. -/
inductive GateKind
  | equals | notEquals | and | or | addition | lessThan | greaterThanEquals | xor | other
deriving DecidableEq, Repr

/-- `struct ArrGate`, WhereParser.h 27-51. -/
structure ArrGate where
  kind : GateKind
  in0 : Nat
  in1 : Nat
  out : Nat
deriving DecidableEq, Repr

/-- `struct WhBundle`, WhereParser.h 54-79. -/
structure WhBundle where
  wires : List Nat
  type : ColumnType
deriving DecidableEq, Repr

/-- What `parse` has built so far: the filled part of `mWhBundle`, the number of wires, and the calls made. -/
structure St where
  bundles : List WhBundle
  next : Nat
  calls : List Call

/-- `n` new consecutive wires. -/
def fresh (s : St) (n : Nat) : List Nat := (List.range n).map (s.next + ·)

/-- Constant wires with the given bits: `addConst` and `addConstBundle`. -/
def addConsts (s : St) (bits : List Bool) : List Nat × St :=
  (fresh s bits.length,
   { s with next := s.next + bits.length,
            calls := s.calls ++ (List.range bits.length).map fun i => .const (s.next + i) (bits.getD i false) })

/-- `WhBundle::getBundle(cd, size)`, WhereParser.h 81-102: an integer repeats its last wire (`back()` of an empty
bundle is undefined), booleans and strings get zeros, binary data is left as it is. -/
def getBundle (b : WhBundle) (size : Nat) (s : St) : Res (List Nat × St) :=
  match b.type with
  | .int =>
    if b.wires.length < size then
      match b.wires.getLast? with
      | none => .error .ub
      | some w => .ok (b.wires ++ List.replicate (size - b.wires.length) w, s)
    else .ok (b.wires, s)
  | .boolean | .string =>
    let (z, s) := addConsts s (List.replicate (size - b.wires.length) false)
    .ok (b.wires ++ z, s)
  | .bin => .ok (b.wires, s)

/-- Lines 165-172, 201-208 and 266-273: the wire of the result, the output wire for the last gate, else a new one. -/
def resultWire (last : Bool) (out : Nat) (s : St) : Nat × St :=
  if last then (out, s) else (s.next, { s with next := s.next + 1 })

/-- The result of a gate becomes the next entry of `mWhBundle`. -/
def push (s : St) (ws : List Nat) (t : ColumnType) (cs : List Call) : St :=
  { s with bundles := s.bundles ++ [⟨ws, t⟩], calls := s.calls ++ cs }

/-- One iteration of the loop over the gates, WhereParser.cpp 143-302; `last` says that it is the last gate, `out` is
the output wire. -/
def gateStep (out : Nat) (last : Bool) (g : ArrGate) (s : St) : Res St := do
  throwIf (decide (g.in0 ≥ s.bundles.length))
  throwIf (decide (g.in1 ≥ s.bundles.length))
  throwIf (g.out != s.bundles.length)
  let a ← rd s.bundles g.in0
  let b ← rd s.bundles g.in1
  let size := max a.wires.length b.wires.length
  match g.kind with
  | .equals | .notEquals =>
    let (ab, s) ← getBundle a size s
    let (bb, s) ← getBundle b size s
    let (c, s) := resultWire last out s
    .ok (push s [c] .boolean (.eq ab bb c :: if g.kind = .notEquals then [.inv c] else []))
  | .and | .or | .xor =>
    throwIf (a.wires.length != 1)
    throwIf (b.wires.length != 1)
    let (c, s) := resultWire last out s
    let x := a.wires.headD 0
    let y := b.wires.headD 0
    .ok (push s [c] .boolean
      [if g.kind = .and then .and x y c else if g.kind = .or then .or x y c else .xor x y c])
  | .addition =>
    let (ab, s) ← getBundle a size s
    let (bb, s) ← getBundle b size s
    throwIf last
    let c := s.next
    let s := { s with next := s.next + size + size }
    .ok (push s ((List.range size).map (c + ·)) .int [.add ab bb c size])
  | .lessThan | .greaterThanEquals =>
    throwIf (a.type != .int && b.type != .int)
    let (ab, s) ← getBundle a size s
    let (bb, s) ← getBundle b size s
    let (c, s) := resultWire last out s
    .ok (push s [c] .boolean [if g.kind = .lessThan then .lt ab bb c else .ge ab bb c])
  | .other => .error .throw

/-- The loop over the gates, WhereParser.cpp 142-303. -/
def gateLoop (out : Nat) : List ArrGate → St → Res St
  | [], s => .ok s
  | g :: gs, s => do
    let s ← gateStep out gs.isEmpty g s
    gateLoop out gs s

/-- The 64 bits of an `i64`. -/
def intBits (v : Int) : List Bool := (List.range 64).map fun i => (BitVec.ofInt 64 v).getLsbD i

/-- The loop of WhereParser.cpp 80-82: `while (msb > 1 && val[msb - 1] == val.back()) --msb`. -/
def msbLoop (val : List Bool) : Nat → Nat
  | 0 => 0
  | 1 => 1
  | n + 2 => if val.getD (n + 1) false == val.getLastD false then msbLoop val (n + 1) else n + 2

/-- The bits of bytes, lowest bit first. -/
def byteBits (l : List Byte) : List Bool :=
  (l.map fun (b : Byte) => (List.range 8).map fun i => b.getLsbD i).flatten

/-- The bits of a literal, WhereParser.cpp 72-116. `"1"`, `"true"`, `"0"`, `"false"` are given as their bytes. The
binary literal appends `data.size()` bits of its bytes. -/
def literal (t : ColumnType) (s : List Byte) : Res (List Bool) :=
  match t with
  | .int => do
    let v ← Table.stoll s
    let val := intBits v
    .ok (val.take (min (msbLoop val val.length + 1) val.length))
  | .boolean =>
    if s = [49] ∨ s = [116, 114, 117, 101] then .ok [true]
    else if s = [48] ∨ s = [102, 97, 108, 115, 101] then .ok [false]
    else .error .throw
  | .string => .ok (byteBits s)
  | .bin => do
    let data ← fromHex s (divCeil s.length 2)
    .ok ((byteBits data).take data.length)

/-- The loop over the literals, WhereParser.cpp 68-125. -/
def litLoop : List (List Byte) → List ColumnType → St → Res St
  | l :: ls, t :: ts, s => do
    let val ← literal t l
    let (ws, s) := addConsts s val
    litLoop ls ts { s with bundles := s.bundles ++ [⟨ws, t⟩] }
  | _, _, s => .ok s

/-- The loop over the columns, WhereParser.cpp 54-62: the first column with the name; its wires are inputs. -/
def colLoop (st : List ColumnInfo) : List (List Byte) → St → Res St
  | [], s => .ok s
  | name :: ns, s =>
    match st.find? (fun c => c.name = name) with
    | none => .error .throw
    | some c =>
      colLoop st ns { s with bundles := s.bundles ++ [⟨fresh s c.bits, c.type⟩], next := s.next + c.bits }

/-- The circuit: its input bundles, its output wire, its number of wires (without the wires inside of the library's
circuits), and the calls which build it. -/
structure Cir where
  inputs : List (List Nat)
  out : Nat
  wires : Nat
  calls : List Call

/-- `WhereParser::parse`, WhereParser.cpp 42-305. -/
def parse (st : List ColumnInfo) (gates : List ArrGate) (inputColumns : List (List Byte))
    (literals : List (List Byte)) (literalTypes : List ColumnType) : Res Cir := do
  let s ← colLoop st inputColumns ⟨[], 0, []⟩
  let inputs := s.bundles.map (·.wires)
  let out := s.next
  let s := { s with next := s.next + 1 }
  throwIf (literals.length != literalTypes.length)
  let s ← litLoop literals literalTypes s
  let s ← gateLoop out gates s
  .ok ⟨inputs, out, s.next, s.calls⟩

/-- The output of the circuit on given values of the columns (as bits); the other wires start with any values `v`. -/
def Cir.eval (lib : Lib) (c : Cir) (cols : List (List Bool)) (v : Nat → Bool) : Bool :=
  runCalls lib c.calls (fun i => if i < cols.flatten.length then cols.flatten.getD i false else v i) c.out

end WhereP
end SecJoin
