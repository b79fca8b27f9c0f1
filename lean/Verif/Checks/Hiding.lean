import Verif.Hiding.Gmw
import Verif.Hiding.Perm
import Verif.Table.Model
import Verif.Checks.Util
/-! Tests of C83. -/
namespace SecJoin.Checks.Hiding
open SecJoin

/-! ## Circuits -/

def blk (s : Nat) : Gmw.Block := BitVec.ofNat 128 (rnd s (2 ^ 64) + 2 ^ 64 * rnd (s + 7777) (2 ^ 64))
def levels : List (List Gmw.Gate) :=
  [[⟨0, 1, 4, .and⟩, ⟨2, 3, 5, .nor⟩, ⟨0, 3, 6, .xor⟩, ⟨1, 3, 7, .or⟩], [⟨4, 5, 8, .nand⟩, ⟨4, 6, 9, .nbAnd⟩, ⟨6, 7, 10, .nxor⟩], [⟨8, 9, 11, .naAnd⟩, ⟨8, 10, 11, .nbOr⟩]]
def words (s W : Nat) : List Gmw.Word := (List.range 12).map fun i => if i < 4 then (List.range W).map fun j => blk (s + 10 * i + j) else List.replicate W 0
/-- The correlations of role `r` (given) and of the other one for its masks: one segment for each level, exactly as large as needed. -/
def mults (s W : Nat) : List (List Gmw.Block) := levels.map fun gs => (List.range (2 * W * Gmw.ands gs)).map fun i => blk (s + gs.length * 50 + i)
def adds (s W : Nat) : List (List Gmw.Block) := mults (s + 3000) W
def pair (m0 a0 m1 : List (List Gmw.Block)) : List (List Gmw.Block × List Gmw.Block) :=
  List.zipWith (fun x y => (x, y)) m1 (List.zipWith (List.zipWith (· ^^^ ·)) (List.zipWith (List.zipWith (· &&& ·)) m0 m1) a0)
/-- The masks of the messages of a level: per gate the two words of the message; in the correlations the masks of all second words come first. -/
def arrange (W : Nat) (d : List Gmw.Block) : List Gmw.Block :=
  let k := d.length / (2 * W)
  let odd := (List.range k).flatMap fun g => (d.drop (2 * g * W)).take W
  let even := (List.range k).flatMap fun g => (d.drop ((2 * g + 1) * W)).take W
  even ++ odd
def fix (r n : Nat) (m0 a0 : List (List Gmw.Block)) (w0 w2 : List Gmw.Word) (goal : List (List Gmw.Block × List Gmw.Block)) :
    Nat → List (List Gmw.Block) → List (List Gmw.Block)
  | 0, m => m
  | k + 1, m =>
    let m := fix r n m0 a0 w0 w2 goal k m
    match Gmw.view r n levels (List.zipWith Prod.mk m0 a0) (pair m0 a0 m) w0 w2 with
    | .ok (ms, _, _) =>
      let d := List.zipWith (· ^^^ ·) (ms.getD k ([], [])).2 (goal.getD k ([], [])).2
      m.set k (List.zipWith (· ^^^ ·) (m.getD k []) (arrange (Gmw.width n) d))
    | .error _ => m
/-- The run with the inputs of seed `s`, and one with other inputs of the other party and fitting masks. -/
def sameView (r n s : Nat) : Bool :=
  let W := Gmw.width n
  let m0 := mults s W
  let a0 := adds s W
  let m1 := mults (s + 500) W
  let w0 := words s W
  okAnd (Gmw.view r n levels (List.zipWith Prod.mk m0 a0) (pair m0 a0 m1) w0 (words (s + 1) W)) fun (ms, v0, _) =>
    let m2 := fix r n m0 a0 w0 (words (s + 2) W) ms levels.length m1
    okAnd (Gmw.view r n levels (List.zipWith Prod.mk m0 a0) (pair m0 a0 m2) w0 (words (s + 2) W)) fun (ms', v0', _) => ms == ms' && v0 == v0'
/-- The final wires of the two views fit the plain circuit. -/
def mirror (n s : Nat) : Bool :=
  let W := Gmw.width n
  let g0 := List.zipWith Prod.mk (mults s W) (adds s W)
  let g1 := pair (mults s W) (adds s W) (mults (s + 500) W)
  okAnd (Gmw.view 0 n levels g0 g1 (words s W) (words (s + 1) W)) fun (ms, v0, v1) =>
    okAnd (Gmw.view 1 n levels g1 g0 (words (s + 1) W) (words s W)) fun (ms', v1', v0') => ms' == ms.map (fun m => (m.2, m.1)) && v0 == v0' && v1 == v1' &&
      okAnd (Gmw.run n levels g0 g1 (words s W) (words (s + 1) W)) fun (_, _, u0, u1) => u0 == v0 && u1 == v1

#eval say "C83_gmw0" <| (List.range 3).all fun s => sameView 0 100 (s * 9000) && sameView 0 300 (s * 9000 + 1)
#eval say "C83_gmw1" <| (List.range 3).all fun s => sameView 1 100 (s * 9000) && sameView 1 300 (s * 9000 + 1)
#eval say "C83_view" <| (List.range 3).all fun s => mirror 100 (s * 9000) && mirror 300 (s * 9000 + 1)

/-! ## Permutations -/

def perms : Nat → List (List Nat)
  | 0 => [[]]
  | n + 1 => (perms n).flatMap fun p => (List.range (n + 1)).map fun i => p.take i ++ [n] ++ p.drop i
def mat (s n c : Nat) : List Row := (List.range n).map fun i => (List.range c).map fun j => BitVec.ofNat 8 (rnd (s * 7919 + i * 131 + j) 256)
def cor (s : Nat) (π0 π1 : List Nat) : Res (ComposedPerm × ComposedPerm) := do
  let (s0, r0) ← genPerm ⟨π0⟩ 16 (mat s π0.length 16) (mat (s + 1) π0.length 16)
  let (s1, r1) ← genPerm ⟨π1⟩ 16 (mat (s + 2) π0.length 16) (mat (s + 3) π0.length 16)
  .ok (⟨0, s0, r1⟩, ⟨1, s1, r0⟩)
/-- How often each vector of flags is opened when one party's permutation is `π` and the other one goes through all permutations. -/
def openings (fst : Bool) (π : List Nat) (f0 f1 : List Byte) : Res (List Nat) := do
  let vs ← mapRes (fun q => do
    let (c0, c1) ← if fst then cor 5 π q else cor 5 q π
    let (_, _, v) ← Extract.opened 4 c0 c1 f0 f1 [⟨8, 1, mat 1 4 1⟩] [⟨8, 1, mat 2 4 1⟩] 1
    .ok v) (perms 4)
  .ok ((List.range 16).map fun k => vs.countP fun v => v == (List.range 4).map fun i => k.testBit i)
def sameOpenings (fst : Bool) : Bool := (perms 4).all fun π =>
  let a := openings fst π [1, 0, 7, 0] [0, 0, 6, 0]
  let b := openings fst π [0, 3, 1, 1] [0, 2, 1, 0]
  let c := openings fst π [5, 4, 9, 8] [4, 5, 8, 8]
  let d := openings fst π [1, 1, 0, 0] [0, 0, 1, 0]
  okAnd a fun a => okAnd b fun b => okAnd c fun c => okAnd d fun d => a == b && c == d && a != c

#eval say "C83_extract0" <| sameOpenings true
#eval say "C83_extract1" <| sameOpenings false
#eval say "C83_derandomize" <|
  let see := fun (π0 π1 q : List Nat) => do
    let s0 := (List.range 4).map fun i => BitVec.ofNat 32 (rnd (i + 60) (2 ^ 32))
    let s1 := List.zipWith (fun (a : BitVec 32) b => a ^^^ BitVec.ofNat 32 b) s0 q
    let (c0, c1) ← cor 9 π0 π1
    let (o, msg, _, _) ← ComposedPerm.derandView c0 c1 s0 s1
    Except.ok (o, msg)
  -- the first party sees every permutation once, whatever the secret one; so does the second one
  ([[0, 1, 2, 3], [2, 3, 1, 0], [1, 0, 3, 2]] : List (List Nat)).all fun q => ([[0, 1, 2, 3], [3, 1, 0, 2]] : List (List Nat)).all fun π =>
    okAnd (mapRes (fun p => do let (o, _) ← see π p q; .ok o) (perms 4)) (fun l => (perms 4).all fun o => l.count o == 1) &&
    okAnd (mapRes (fun p => do let (_, m) ← see p π q; .ok m) (perms 4)) fun l => (perms 4).all fun o => l.count o == 1

/-! ## Messages of permutation correlations -/

def xm (a b : List Row) : List Row := List.zipWith (List.zipWith (· ^^^ ·)) a b
/-- Two calls of three and two bytes with the given operations. -/
def two (s : PermCorSender) (r : PermCorReceiver) (o1 o2 : PermOp) (x y : List Row) : Res (PermCorSender × List (List Row)) := do
  let (s, r, m1, so1, _) ← applyBoth s r o1 ⟨3, x⟩ none
  let (s, _, m2, so2, _) ← applyBoth s r o2 ⟨2, y⟩ (some ⟨2, mat 71 5 2⟩)
  .ok (s, [m1.rows, so1.rows, m2.rows, so2.rows])
/-- The receiver side moved by `dx` in the first three columns and by `dy` in the next two ones. -/
def move (π : List Nat) (o1 o2 : PermOp) (dx dy : List Row) (r : PermCorReceiver) : PermCorReceiver :=
  let pad := fun (d e : List Row) => List.zipWith (fun a b => a ++ b ++ List.replicate 11 0) d e
  let g := fun (d : List Row) => π.map fun i => d.getD i []
  let h := fun (d : List Row) => (List.range 5).map fun i => d.getD (π.idxOf i) []
  let da := pad (if o1 = .regular then dx else h dx) (if o2 = .regular then dy else h dy)
  let db := pad (if o1 = .regular then g dx else dx) (if o2 = .regular then g dy else dy)
  { r with a := xm r.a da, b := xm r.b db }

#eval say "C83_message" <| ([PermOp.regular, .inverse] : List PermOp).all fun o1 => ([PermOp.regular, .inverse] : List PermOp).all fun o2 =>
  (List.range 4).all fun k =>
    let π := rperm k 5
    let x := mat (k + 11) 5 3; let y := mat (k + 12) 5 2; let x' := mat (k + 13) 5 3; let y' := mat (k + 14) 5 2
    okAnd (genPerm ⟨π⟩ 16 (mat k 5 16) (mat (k + 1) 5 16)) fun (s, r) =>
      okAnd (two s r o1 o2 x y) fun v => okAnd (two s (move π o1 o2 (xm x x') (xm y y') r) o1 o2 x' y') fun v' => v == v'

/-! ## Shares of tables -/

def tab (s : Nat) : Table := ⟨(List.range 4).map fun i => BitVec.ofNat 8 (rnd (s + i) 2), [⟨⟨[97], .int, 16⟩, ⟨16, 2, mat s 4 2⟩⟩, ⟨⟨[98], .string, 24⟩, ⟨24, 3, mat (s + 1) 4 3⟩⟩]⟩

#eval say "C83_share" <| (List.range 4).all fun s =>
  let t := tab s; let t' := tab (s + 40)
  let R := fun (a i b : Nat) => BitVec.ofNat 8 (rnd (s + a * 100 + i * 10 + b) 256)
  let F := fun (i : Nat) => BitVec.ofNat 8 (rnd (s + 7000 + i) 256)
  let cell := fun (t : Table) (a i b : Nat) => ((((t.cols.map fun c => c.data.rows).getD a []).getD i []).getD b 0)
  okAnd (Table.share R F t) fun (a, b) => okAnd (Table.share R F t') fun (a', b') =>
    okAnd (Table.share (fun x i y => R x i y ^^^ cell t x i y ^^^ cell t' x i y) (fun i => F i ^^^ t.isActive.getD i 0 ^^^ t'.isActive.getD i 0) t') fun (a2, b2) =>
      a == a' && b == b2 && b != b' && a != a2

end SecJoin.Checks.Hiding
