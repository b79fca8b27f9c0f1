import Verif.GMW.Model
import Verif.GMW.Circuit
import Verif.Checks.Util
/-!
# Tests of C23 to C26
-/
namespace SecJoin.Checks.Gmw
open SecJoin.Gmw

def types : List (GateType × (Bool → Bool → Bool)) := [(.a, fun a _ => a), (.naAnd, fun a b => !a && b), (.nbAnd, fun a b => a && !b), (.and, fun a b => a && b),
  (.nand, fun a b => !(a && b)), (.nor, fun a b => !(a || b)), (.nbOr, fun a b => a || !b), (.or, fun a b => a || b), (.xor, fun a b => a ^^ b), (.nxor, fun a b => !(a ^^ b))]
def bads : List GateType := [.zero, .na, .nb, .b, .naOr, .one]
def tab (t : GateType) : Bool → Bool → Bool := ((types.find? (·.1 == t)).map (·.2)).getD fun _ _ => false
def blk (s : Nat) : Block := BitVec.ofNat 128 (rnd (2 * s) (2 ^ 64) * 2 ^ 64 + rnd (2 * s + 1) (2 ^ 64))
def word (s W : Nat) : Word := (List.range W).map fun i => blk (s * 100 + i)
def bitOf (w : Word) (k : Nat) : Bool := (w.getD (k / 128) 0).getLsbD (k % 128)
/-- Segments of valid OLEs: the sum of the additive parts is the product of the others. -/
def segs (l : List Nat) : List (List Block × List Block) × List (List Block × List Block) :=
  let t := l.zipIdx.map fun (n, k) => (word (11 + 4 * k) n, word (12 + 4 * k) n, word (13 + 4 * k) n)
  (t.map fun (a, b, _) => (a, b), t.map fun (a, b, c) => (c, List.zipWith (· ^^^ ·) (List.zipWith (· &&& ·) a c) b))
def plain (gs : List Gate) (v : List Bool) : List Bool := gs.foldl (fun v g => v.set g.out (tab g.type (v.getD g.in0 false) (v.getD g.in1 false))) v
def wires (s m W : Nat) : List Word := (List.range m).map fun i => word (s + i) W
def runOk (n m : Nat) (levels : List (List Gate)) (l : List Nat) : Bool := let W := (n + 127) / 128
  let w0 := wires 500 m W; let w1 := wires 700 m W; let (s0, s1) := segs l
  128 * l.sum == numOles n levels && okAnd (run n levels s0 s1 w0 w1) fun (p0, p1, v0, v1) => p0.add.length == 0 && p1.add.length == 0 && p0.segs.length == 0 && p1.segs.length == 0 &&
    (List.range n).all fun k => (List.range m).map (fun i => bitOf (v0.getD i []) k ^^ bitOf (v1.getD i []) k) ==
      plain levels.flatten ((List.range m).map fun i => bitOf (w0.getD i []) k ^^ bitOf (w1.getD i []) k)

#eval say "C23_gate" <| types.all fun (t, _) => [1, 130].all fun n => runOk n 3 [[⟨0, 1, 2, t⟩]] (if kind t == .mult then [2 * ((n + 127) / 128)] else [])
#eval say "C23_in_place" <| types.all fun (t, _) => runOk 5 3 [[⟨0, 1, 0, t⟩]] (if kind t == .mult then [2] else [])
#eval say "C23_refused" <| (types.all fun (t, _) => kind t != .bad) && bads.all fun t => isThrow (run 1 [[⟨0, 1, 2, t⟩]] [] [] (wires 1 3 1) (wires 2 3 1))
def lv : List (List Gate) := [[⟨0, 1, 4, .and⟩, ⟨0, 2, 5, .nbOr⟩, ⟨3, 3, 6, .a⟩, ⟨1, 3, 7, .nor⟩], [⟨4, 5, 8, .nxor⟩, ⟨8, 6, 9, .nand⟩], [⟨9, 7, 10, .naAnd⟩, ⟨9, 9, 11, .a⟩, ⟨4, 9, 12, .xor⟩, ⟨11, 12, 13, .nbAnd⟩, ⟨2, 4, 0, .or⟩]]
#eval say "C24_run" <| runOk 100 14 lv [14] && runOk 300 14 lv [2, 4, 6, 10, 20] && runOk 257 14 lv [42] && runOk 128 14 lv [2, 2, 2, 2, 2, 4] && isThrow (run 5 [[], []] [] [] [[0]] [[0]])
#eval say "C24_refuse" <| let (s0, s1) := segs [12]; isThrow (run 100 lv s0 s1 (wires 500 14 1) (wires 700 14 1))
#eval say "C24_messages" <| [(1, 5), (3, 2731), (3, 2730), (100, 200), (9000, 3), (1, 9000)].all fun (W, k) => let c := chunks W k (W * 2 * k)
  c.sum == W * 2 * k && c.all fun x => x != 0 && x % (2 * W) == 0 && (decide (x ≤ 2 ^ 14) || decide (x < 2 ^ 14 + 2 * W))
#eval say "C25_odd_segment_hangs" <| let (s0, s1) := segs [3, 1]; isDiv (run 1 [[⟨0, 1, 2, .and⟩, ⟨0, 1, 3, .or⟩]] s0 s1 (wires 1 4 1) (wires 2 4 1))
#eval say "C26_isZero" <| (List.range 40).all fun b => b == 0 || ((evalOps (isZeroOps b) (fun _ => false) 0) && (List.range b).all fun k =>
  !(evalOps (isZeroOps b) (fun i => i == k) 0) && !(evalOps (isZeroOps b) (fun i => decide (k ≤ i ∧ i < b)) 0) && evalOps (isZeroOps b) (fun i => decide (b ≤ i)) 0)

end SecJoin.Checks.Gmw
