import Verif.TableOps.WhereParser
/-!
# What where clauses mean

Independent of the circuits: an operand is an integer with a type and a width, and a gate is an operation on integers.
-/
namespace SecJoin
namespace WhereP

/-- The natural number with the given bits, lowest first. -/
def uval : List Bool → Nat
  | [] => 0
  | b :: t => b.toNat + 2 * uval t

/-- The two's complement value of the given bits. -/
def sval : List Bool → Int
  | [] => 0
  | [b] => -(b.toNat : Int)
  | b :: c :: t => b.toNat + 2 * sval (c :: t)

/-- The value of a cell: integers are two's complement, everything else is the number made of the bits. -/
def den (t : ColumnType) (l : List Bool) : Int := if t = .int then sval l else uval l

/-- An operand of a gate. -/
structure SVal where
  type : ColumnType
  width : Nat
  val : Int

/-- The operand of a cell with the given bits. -/
def SVal.ofBits (t : ColumnType) (l : List Bool) : SVal := ⟨t, l.length, den t l⟩

/-- Equality, comparison and addition take place at the larger of the two widths. -/
def SVal.size (a b : SVal) : Nat := max a.width b.width

def truth (p : Prop) [Decidable p] : SVal := ⟨.boolean, 1, if p then 1 else 0⟩

/-- What a gate computes. Values are compared modulo `2^size`, for `<` and `>=` by their representatives in
`[-2^(size-1), 2^(size-1))`, which `Int.bmod` gives. -/
def gateSpec (k : GateKind) (a b : SVal) : SVal :=
  let m : Nat := 2 ^ SVal.size a b
  match k with
  | .equals => truth (a.val % m = b.val % m)
  | .notEquals => truth (a.val % m ≠ b.val % m)
  | .and => truth (a.val ≠ 0 ∧ b.val ≠ 0)
  | .or => truth (a.val ≠ 0 ∨ b.val ≠ 0)
  | .xor => truth (¬ (a.val ≠ 0 ↔ b.val ≠ 0))
  | .addition => ⟨.int, SVal.size a b, Int.bmod (a.val + b.val) m⟩
  | .lessThan => truth (Int.bmod a.val m < Int.bmod b.val m)
  | .greaterThanEquals => truth (Int.bmod b.val m ≤ Int.bmod a.val m)
  | .other => truth False

/-- The operands of a clause: columns, then literals, then the results of the gates. -/
def clauseSpec : List ArrGate → List SVal → List SVal
  | [], env => env
  | g :: gs, env =>
    clauseSpec gs (env ++ [gateSpec g.kind (env.getD g.in0 ⟨.bin, 0, 0⟩) (env.getD g.in1 ⟨.bin, 0, 0⟩)])

/-- The truth value of a clause: that of its last gate. -/
def holds (gates : List ArrGate) (env : List SVal) : Bool :=
  ((clauseSpec gates env).getLast?.map fun s => decide (s.val ≠ 0)).getD false

/-- What is assumed of the library's circuits: on operands of equal positive width they compute equality, the
comparison of two's complement numbers, and addition modulo `2^width`. Nothing is assumed about other operands. -/
structure Lib.Ok (lib : Lib) : Prop where
  eq : ∀ a b : List Bool, a.length = b.length → a ≠ [] → lib.eq a b = decide (a = b)
  lt : ∀ a b : List Bool, a.length = b.length → a ≠ [] → lib.lt a b = decide (sval a < sval b)
  ge : ∀ a b : List Bool, a.length = b.length → a ≠ [] → lib.ge a b = decide (sval b ≤ sval a)
  add : ∀ a b : List Bool, a.length = b.length → a ≠ [] →
    (lib.add a b a.length).length = a.length ∧
      uval (lib.add a b a.length) = (uval a + uval b) % 2 ^ a.length

/-- The widths of an operand pair are ones for which the library's behaviour is known: not both empty, and binary
data, which is never widened, not narrower than the other operand. -/
def Fits (a b : SVal) : Prop :=
  0 < SVal.size a b ∧ (a.type = .bin → b.width ≤ a.width) ∧ (b.type = .bin → a.width ≤ b.width)

/-- All gates which widen their operands have fitting ones. -/
def AllFit : List ArrGate → List SVal → Prop
  | [], _ => True
  | g :: gs, env =>
    let a := env.getD g.in0 ⟨.bin, 0, 0⟩
    let b := env.getD g.in1 ⟨.bin, 0, 0⟩
    (g.kind = .and ∨ g.kind = .or ∨ g.kind = .xor ∨ Fits a b) ∧ AllFit gs (env ++ [gateSpec g.kind a b])

instance (a b : SVal) : Decidable (Fits a b) := by unfold Fits; infer_instance

instance decAllFit : ∀ gs env, Decidable (AllFit gs env)
  | [], _ => .isTrue trivial
  | g :: gs, env =>
    have := decAllFit gs (env ++ [gateSpec g.kind (env.getD g.in0 ⟨.bin, 0, 0⟩) (env.getD g.in1 ⟨.bin, 0, 0⟩)])
    inferInstanceAs (Decidable (_ ∧ _))

/-! ## Circuits in which every wire is assigned once -/

/-- The wires a call reads. -/
def Call.reads : Call → List Nat
  | .const .. => []
  | .inv w => [w]
  | .eq a b _ => a ++ b
  | .and a b _ => [a, b]
  | .or a b _ => [a, b]
  | .xor a b _ => [a, b]
  | .add a b _ _ => a ++ b
  | .lt a b _ => a ++ b
  | .ge a b _ => a ++ b

/-- The wires a call assigns. -/
def Call.writes : Call → List Nat
  | .const w _ => [w]
  | .inv w => [w]
  | .eq _ _ o => [o]
  | .and _ _ o => [o]
  | .or _ _ o => [o]
  | .xor _ _ o => [o]
  | .add _ _ o n => (List.range n).map (o + ·)
  | .lt _ _ o => [o]
  | .ge _ _ o => [o]

/-- The first `ins` wires are inputs, those in `W` have been assigned, the latest first. Every call reads inputs and
assigned wires only, and assigns wires which are neither; a wire is inverted only directly after it was assigned. -/
def Once (ins : Nat) : List Nat → List Call → Prop
  | _, [] => True
  | W, .inv w :: cs => W.head? = some w ∧ Once ins W cs
  | W, c :: cs => (∀ r ∈ c.reads, r < ins ∨ r ∈ W) ∧ (∀ w ∈ c.writes, ins ≤ w ∧ w ∉ W) ∧ Once ins (c.writes ++ W) cs

end WhereP
end SecJoin
