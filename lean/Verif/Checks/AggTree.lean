import Verif.AggTree.Secure
import Verif.Checks.Util
/-!
# Tests of C27 to C29
-/
namespace SecJoin.Checks.AggTree
open SecJoin.Agg

def ns := [2, 3, 4, 5, 7, 8, 15, 16, 17, 31, 32, 33, 40, 48, 49, 100, 200]
def vals (n : Nat) : List String := (List.range n).map fun i => s!"{i},"
def bits (s n : Nat) : List Bool := (List.range n).map fun i => i != 0 && rnd (s * 1000 + i) (s + 2) != 0
def start (c : List Bool) (i : Nat) : Nat := ((List.range (i + 1)).filter fun k => k == 0 || c.getD k false == false).getLast?.getD 0
def stop (c : List Bool) (i : Nat) : Nat := (((List.range c.length).filter fun k => decide (i < k) && c.getD k false == false).head?.getD c.length) - 1
def cat (xs : List String) (s e : Nat) : String := String.join ((xs.drop s).take (e + 1 - s))
def pre (xs : List String) (c : List Bool) := (List.range xs.length).map fun i => cat xs (start c i) i
def suf (xs : List String) (c : List Bool) := (List.range xs.length).map fun i => cat xs i (stop c i)
def full (xs : List String) (c : List Bool) := (List.range xs.length).map fun i => cat xs (start c i) (stop c i)
def cases : List (List String × List Bool) := ns.flatMap fun n => [0, 1, 2, 9].map fun s => (vals n, bits s n)

#eval say "C27_plain" <| cases.all fun (xs, c) => okAnd (pTree (· ++ ·) "?" xs c) fun r => r.map (·.1) == pre xs c && r.map (·.2.1) == suf xs c && r.map (·.2.2) == full xs c
#eval say "C27_shared" <| cases.all fun (xs, c) => okAnd (aggTree .pre (· ++ ·) "?" xs c) (· == pre xs c) && okAnd (aggTree .suf (· ++ ·) "?" xs c) (· == suf xs c) &&
  okAnd (aggTree .full (· ++ ·) "?" xs c) (· == full xs c)
#eval say "C27_first_bit" <| isUb (pTree (· ++ ·) "?" (vals 5) (true :: bits 1 4))
#eval say "C28_sizes" <| (List.range 300).all fun n => n < 2 || okAnd (computeTreeSizes n) fun p => decide (n ≤ p.n16) && p.n == n &&
  (p.n16 == 2 ^ Nat.clog 2 n || (p.n16 % 16 == 0 && decide (p.n16 < n + 16))) && match p.sizes with
  | s0 :: s1 :: up => s0 % 2 == 0 && decide (0 < s0) && decide (s0 / 2 ≤ s1) && s0 + (s1 - s0 / 2) == p.n16 && (decide (s1 ≤ s0 / 2) || p.r == s0 / 2) && (s1 :: up).getLast? == some 1 &&
      (List.zip (s1 :: up) up).all fun (a, b) => a == 2 * b
  | _ => false
#eval say "C28_one_row" <| isUb (computeTreeSizes 1)

def f (a b : BitVec 16) : BitVec 16 := a * 3 + b * b * 5 + 7
def bv (i : Nat) : BitVec 16 := BitVec.ofNat 16 (rnd i 65536)
def junk : Wires 16 := ⟨fun r => match r with | .temp1 => 77 | .temp2 => 99 | .lt1 => 5 | .rt3 => 1234 | _ => 4242, fun _ => true⟩
def bs := [false, true]
def modes : List (AggType × Bool × Bool) := [(.pre, true, false), (.suf, false, true), (.full, true, true)]
def opt (b : Bool) (l : List (Cell 16)) := if b then l else []
#eval say "C29_upstream" <| modes.all fun (t, p, s) => bs.all fun a => bs.all fun b => bs.all fun c => bs.all fun d =>
  okAnd ((upstreamCir t).run f 0xabcd junk (upInputs t ((bv 1, a), (bv 2, b)) ((bv 3, c), (bv 4, d)))) fun o =>
    o == opt p [.v (if c then f (bv 1) (bv 3) else bv 3), .b (a && c)] ++ opt s [.v (if b then f (bv 2) (bv 4) else bv 2), .b (b && d)]
#eval say "C29_downstream" <| modes.all fun (t, p, s) => bs.all fun a => bs.all fun b => bs.all fun c => bs.all fun d =>
  okAnd ((downstreamCir t).run f 0xabcd junk (downInputs t ((bv 1, a), (bv 2, b)) ((bv 3, c), (bv 4, d)) (bv 5, bv 6))) fun o =>
    o == opt p [.v (bv 5), .v (if a then f (bv 5) (bv 1) else bv 1)] ++ opt s [.v (if d then f (bv 4) (bv 6) else bv 4), .v (bv 6)]
def leafSpec (p s : Bool) (x u v : BitVec 16) (a b : Bool) := let y := if p && a then f u x else x; if s && b then f y v else y
#eval say "C29_leaf" <| modes.all fun (t, p, s) => bs.all fun a => bs.all fun b => bs.all fun c => bs.all fun d =>
  okAnd ((leafCircuit t).run f 0xabcd junk (leafInputs t ((bv 1, a), (bv 1, b)) ((bv 3, c), (bv 3, d)) (bv 5, bv 6) (bv 7, bv 8))) fun o =>
    o == [.v (leafSpec p s (bv 1) (bv 5) (bv 6) a b), .v (leafSpec p s (bv 3) (bv 7) (bv 8) c d)]

end SecJoin.Checks.AggTree
