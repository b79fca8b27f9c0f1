import Verif.Cor.ReqCheck
import Verif.Checks.Util
/-! Instances of C76, evaluated. -/
namespace SecJoin.Checks.ReqCheck
open SecJoin.Cor

def g (p : Bool) : Gen := ⟨1024, p, fun _ _ => none, []⟩
abbrev L := List (Kind × Bool × Nat)
def go (x y : L) (k : Nat) : Where × Where :=
  let sched := match k with
    | 0 => (List.replicate 20 [false, true]).flatten
    | 1 => List.replicate 9 true ++ List.replicate 9 false ++ List.replicate 9 true ++ List.replicate 9 false
    | _ => (List.range 80).map fun i => rnd (k * 100 + i) 2 == 0
  let s := dbgRun sched (.start (record (g false) x), .start (record (g true) y))
  (s.1.pos, s.2.pos)
def ks : List Nat := [0, 1, 2, 3]
def x3 : L := [(.ole, false, 300), (.ot, true, 128), (.f4, false, 1)]
def y3 : L := [(.ole, false, 384), (.ot, false, 1), (.f4, true, 100)]
def bad : List (L × L) := [([(.ot, true, 128)], [(.ot, true, 128)]), (x3, y3.reverse), (x3, y3.take 2), (x3.take 2, y3), (x3, (.ole, true, 385) :: y3.drop 1),
  ([(.trit, true, 9)], [(.ot, false, 9)])]

#eval say "C76_match" <| ks.all fun k => go x3 y3 k == (.passed, .passed) && go [] [] k == (.passed, .passed) && go y3 x3 k == (.passed, .passed) &&
  go [(.ole, true, 5)] [(.ole, true, 5)] k == (.passed, .passed)
#eval say "C76_mismatch_partial" <| ks.all fun k => bad.all fun (x, y) => go x y k == (.threw, .threw) && go y x k == (.threw, .threw)
#eval say "C76_none_false" <| ks.all fun k => go [] y3 k == (.passed, .wait) && go (x3.take 1) [] k == (.wait, .passed)
#eval say "C76_longer_false" <| ks.all fun k => go (x3 ++ x3) (y3.take 2) k == (.wait, .threw) && go (x3.take 1) y3 k == (.threw, .wait) && go x3 (y3.drop 2) k == (.wait, .threw)
end SecJoin.Checks.ReqCheck
