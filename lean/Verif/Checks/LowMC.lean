import Verif.Prf.LowMC
import Verif.Checks.Util
/-!
# Tests of C55, C56 and C69
-/
namespace SecJoin.Checks.LowMC
open SecJoin.LowMC

def rb (s n : Nat) : BitVec n := BitVec.ofNat n (rnd s (2 ^ n))
def rmat (s m n : Nat) : Mtx n := (List.range m).map fun i => rb (s * 100 + i) n
def dot (x y : BitVec n) : Bool := (List.range n).foldl (fun a i => a ^^ (x.getLsbD i && y.getLsbD i)) false
/-- The product computed bit by bit. -/
def times (M : Mtx n) (x : BitVec n) : List Bool := M.map (dot x)
def rdBits (x : BitVec n) : List Bool := (List.range n).map x.getLsbD
def all (n : Nat) : List (BitVec n) := (List.range (2 ^ n)).map (BitVec.ofNat n)
/-- The rank: the logarithm of the number of different images. -/
def rank (M : Mtx n) : Nat := Nat.log2 (((all n).map (times M)).eraseDups.length)
def unit (M : Mtx n) : Bool := rank M == n
def eq (r : Res α) (x : α) [BEq α] : Bool := okAnd r (· == x)

def shapes := [(1, 1), (2, 1), (3, 2), (4, 4), (5, 3), (4, 4), (5, 5), (3, 3), (6, 5)]
def sqs := [1, 2, 3, 4, 5]

#eval say "C55_rank" <| shapes.all fun (m, n) => (List.range 12).all fun s => let M := rmat s m n; eq (rankOf M) (rank M)
#eval say "C55_full" <| sqs.all fun n => (List.range 20).all fun s => let M := rmat (s + 50) n n; eq (rankOf M) n == unit M
#eval say "C55_rank_ub" <| [(1, 2), (2, 3), (2, 4), (3, 5)].all fun (m, n) =>
  isUb (rankOf ((List.range m).map fun i => BitVec.twoPow n (n - 1 - i) : Mtx n))
#eval say "C55_invert" <| sqs.all fun n => (List.range 40).all fun s => let M := rmat (s + 90) n n; !unit M ||
  okAnd (invert M) fun I => I.length == n && (all n).all fun x => okAnd (mul n M x) fun y => times I y == rdBits x
#eval say "C55_mul" <| shapes.all fun (m, n) => (List.range 10).all fun s => let M := rmat (s + 140) m n; let x := rb (s + 7) n
  okAnd (mul m M x) fun y => rdBits y == times M x && isUb (mul (m + 1) M x)

def src (n k s : Nat) (files : Bool) : Source n k where
  linFile := fun r => if files && r % 2 == 1 then
      ((List.range 100).map fun t => rmat (s * 31 + r * 400 + t) n n).find? (unit ·) |>.map fun M => writeMatrix M
    else none
  linDrawn := fun r => (List.range 100).map fun t i => rb (((s * 37 + r) * 100 + t) * 100 + i) n
  keyFile := fun _ => none
  keyDrawn := fun r => (List.range 100).map fun t i => rb (((s * 41 + r) * 100 + t) * 100 + i + 5) k
  const := fun r => rb (s * 43 + r) n
  junk := 48#8

def cfg := [(4, 3, 1, 2), (7, 4, 2, 3), (6, 6, 1, 1), (5, 2, 0, 2), (6, 5, 2, 2)]

#eval say "C55_create" <| cfg.all fun (n, k, b, r) => [1, 2].all fun s => okAnd (create n k b r true (src n k s true) (rb s k)) fun c =>
  c.lin.length == r && c.lin.all unit && c.keyMats.all (fun M => rank M == min n k) && c.keyMats.length == r + 1
#eval say "C55_decrypt" <| cfg.all fun (n, k, b, r) => [1, 2].all fun s => okAnd (create n k b r true (src n k s true) (rb s k)) fun c =>
  ((all n).all fun x => okAnd (encrypt c x) fun y => eq (decrypt c y) x)
#eval say "C55_decrypt_file" <| cfg.all fun (n, k, b, r) => (List.range 8).all fun s =>
  match create n k b r true { src n k 1 false with linFile := fun _ => some (writeMatrix (rmat s n n)) } (rb s k) with
  | .ok c => (all n).all fun x => okAnd (encrypt c x) fun y => eq (decrypt c y) x
  | .error e => e == .throw
#eval say "C55_setKey" <| cfg.all fun (n, k, b, r) => [3].all fun s => okAnd (create n k b r true (src n k s true) (rb s k)) fun c =>
  okAnd (keySchedule c (rb (s + 9) k)) fun c => (c.roundKeys.map rdBits == c.keyMats.map fun M => (times M (rb (s + 9) k))) &&
  (all n).all fun x => okAnd (encrypt c x) fun y => eq (decrypt c y) x
#eval say "C55_refused" <| cfg.all fun (n, k, b, r) => okAnd (create n k b r false (src n k 4 true) (rb 1 k)) fun c => isThrow (decrypt c (rb 2 n))
/-- The cipher written out on bits. -/
def spec (c : Inst n k) (rks : List (BitVec n)) (x : BitVec n) : List Bool := Id.run do
  let mut s := List.zipWith (· ^^ ·) (rdBits x) (rdBits (rks.getD 0 0))
  for r in List.range c.rounds do
    let t := s
    for i in List.range c.boxes do
      let (x0, x1, x2) := (t.getD (3 * i) false, t.getD (3 * i + 1) false, t.getD (3 * i + 2) false)
      s := s.set (3 * i + 2) (x2 ^^ (x1 && x0))
      s := s.set (3 * i + 1) (x2 ^^ x1 ^^ (x2 && x0))
      s := s.set (3 * i) (x2 ^^ x1 ^^ x0 ^^ (x2 && x1))
    let u := s
    s := (List.range n).map fun i => (List.range n).foldl (fun a j => a ^^ (((c.lin.getD r []).getD i 0).getLsbD j && u.getD j false)) false
    s := List.zipWith (· ^^ ·) (List.zipWith (· ^^ ·) s (rdBits (c.consts.getD r 0))) (rdBits (rks.getD (r + 1) 0))
  return s
#eval say "C70_cipher" <| cfg.all fun (n, k, b, r) => okAnd (create n k b r true (src n k 5 true) (rb 1 k)) fun c =>
  (List.range 9).all fun i => okAnd (encrypt c (rb i n)) fun y => rdBits y == spec c (c.keyMats.map fun M => BitVec.ofNat n ((times M (rb 1 k)).foldr (fun b a => 2 * a + b.toNat) 0)) (rb i n)
#eval say "C70_drawn" <| cfg.all fun (n, k, b, r) => let s := src n k 8 true; okAnd (create n k b r false s (rb 1 k)) fun c =>
  c.consts == (List.range r).map s.const && c.lin == (List.range r).map (fun q => (List.range n).map ((s.linDrawn q).getD 0 fun _ => 0)) &&
  c.keyMats == (List.range (r + 1)).map (fun q => (List.range n).map ((s.keyDrawn q).getD 0 fun _ => 0))
#eval say "C56_circuit" <| cfg.all fun (n, k, b, r) => [6, 7].all fun s => okAnd (create n k b r false (src n k s true) (rb 1 k)) fun c =>
  if n == 5 || c.lin.all fun M => M.all fun row => ((List.range n).filter row.getLsbD).length ≥ 2 then
    n == 5 || okAnd (toEncCircuit c) fun cir => (List.range 5).all fun i => let rks := (List.range (r + 1)).map fun j => rb (i * 20 + j) n
      cir.eval (rdBits (rb i n) :: rks.map rdBits) (fun w => rnd (w + i) 2 == 1) == [spec c rks (rb i n)]
  else isUb (toEncCircuit c)
/-- A matrix with at least two ones in each row. -/
def two (s n : Nat) : Mtx n := (List.range n).map fun i => rb (s * 77 + i) n ||| BitVec.twoPow n (i % n) ||| BitVec.twoPow n ((i + 1 + s) % n)
#eval say "C56_two" <| [(4, 1, 2), (7, 2, 3), (6, 2, 1), (3, 0, 2)].all fun (n, b, r) => [1, 2].all fun s =>
  let c : Inst n 3 := ⟨b, r, false, (List.range r).map fun q => two (s + q) n, [], (List.range r).map fun q => rb (s + q) n, [], []⟩
  let ok := c.lin.all fun M => M.all fun row => ((List.range n).filter row.getLsbD).length ≥ 2
  !ok || okAnd (toEncCircuit c) fun cir => (List.range 8).all fun i => let rks := (List.range (r + 1)).map fun j => rb (i * 20 + j) n
      cir.eval (rdBits (rb i n) :: rks.map rdBits) (fun w => rnd (w + i) 2 == 1) == [spec c rks (rb i n)] &&
      cir.gates.all (fun g => g.type == .xor || g.type == .and || g.type == .nxor)
#eval say "C56_ub" <| [0, 1, 3].all fun i => let c : Inst 4 3 := ⟨1, 2, false, [two 1 4, (two 2 4).set i 4#4], [], [0, 0], [], []⟩; isUb (toEncCircuit c)
#eval say "C69_file" <| [(2, 3), (3, 1), (1, 4)].all fun (n, k) => let M := rmat 3 n k; let s := writeMatrix M
  s.length == n * (k + 1) && eq (loadMatrix n k s 7#8) M && eq (loadMatrix n k (s ++ [1, 2]) 48#8) M &&
  ([7#8, 48#8, 49#8, 10#8].all fun c => (List.range s.length).all fun i => isThrow (loadMatrix n k (s.take i) c)) &&
  (List.range s.length).all fun i => [50#8, 10#8, 48#8, 32#8].all fun d => let s' := s.set i d
    match loadMatrix n k s' 0 with | .ok M' => writeMatrix M' == s' | .error e => e == .throw

end SecJoin.Checks.LowMC
