import Verif.Cor.Compress
/-!
# Tests of C44, C45, C46 and C57

Instances of the statements, evaluated on concrete values. These are tests, not proofs, and no claim rests on them: they are run on edited models
to see whether the statement rejects a wrong program. The specifications are repeated here, since the files with the theorems do not build when the
model is edited.
-/
namespace SecJoin.Checks.Compress
open SecJoin SecJoin.Cor SecJoin.Simd
abbrev Blk := SecJoin.Mod3.Block

def rnd (i : Nat) : Blk := Id.run do
  let mut x := (i + 1) * 0x9E3779B97F4A7C15F39CC0605CEDC835 % 2 ^ 128
  for _ in [0:3] do
    x := (x ^^^ (x >>> 61)) * 0xDA942042E4DD58B5BF58476D1CE4E5B9 % 2 ^ 128
  return BitVec.ofNat 128 (x ^^^ (x >>> 67))
def hsh (x : Blk) : Blk := rnd (x.toNat % 1000003)
def bit (l : List Blk) (p : Nat) : Bool := (l.getD (p / 128) 0).getLsbD (p % 128)
def low (x : Blk) (k : Nat) : Blk := x >>> k <<< k
def n := 3
def N := 128 * n
def delta := rnd 777
def B := (List.range N).map fun i => rnd (1000 + i)
def choice (i : Nat) : Bool := (rnd (5000 + i)).getLsbD 9
def A := (List.range N).map fun i => (low (rnd (1000 + i)) 1 ^^^ (if choice i then low delta 1 else 0)) ||| (if choice i then 1 else 0)
def ps := List.range N
def okAnd {α} (r : Res α) (f : α → Bool) : Bool := match r with | .ok a => f a | .error _ => false
def isThrow {α} (r : Res α) : Bool := match r with | .error .throw => true | _ => false
def say (s : String) (b : Bool) : IO Unit := IO.println s!"{s} {b}"

#eval say "C44_compress" <| okAnd (oleSend gather hsh delta B n n) fun (sa, sm) => okAnd (oleRecv gather hsh A n n) fun (ra, rm) =>
  sa.length == n && sm.length == n && ra.length == n && rm.length == n &&
  ps.all fun p => ((bit sm p && bit rm p) == (bit sa p ^^ bit ra p)) && bit rm p == choice p &&
    bit sm p == ((hsh (low (B.getD p 0) 1)).getLsbD 0 ^^ (hsh (low (B.getD p 0) 1 ^^^ low delta 1)).getLsbD 0)
#eval say "C44_size" <| [(2, 3), (3, 2), (4, 3), (3, 4), (2, 2)].all fun (a, m) => isThrow (oleSend gather hsh delta B a m) && isThrow (oleRecv gather hsh A a m)
#eval say "C44_mock" <| [0, 1, 5, 8, 19, 24].all fun m => [((rnd 1).extractLsb' 64 64, (rnd 1).extractLsb' 0 64)].all fun s =>
  let S := oleMockSend s m
  let R := oleMockRecv s m
  S.1.length == m && S.2.length == m && R.1.length == m && R.2.length == m &&
  (List.range m).all fun i =>
    let (a, b, c, d) := (S.1.getD i (0, 0), S.2.getD i (0, 0), R.1.getD i (0, 0), R.2.getD i (0, 0))
    (a.1 ^^^ c.1) == (b.1 &&& d.1) && (a.2 ^^^ c.2) == (b.2 &&& d.2)
#eval say "C44_deliver" <| let l := (List.range 7).map rnd
  [(0, 896), (128, 256), (256, 640), (768, 128), (384, 0)].all fun (b, s) => okAnd (deliver l b s) fun r =>
    128 * r.length == s && (List.range s).all fun p => bit r p == bit l (b + p)
#eval say "C45_ot_mock" <| [rnd 3, rnd 4].all fun s => let S := otMockSend s 40; let R := otMockRecv s 40
  S.length == 40 && R.1.length == 40 && R.2.length == 40 && (List.range 40).all fun i =>
    R.2.getD i 0 == if R.1.getD i false then (S.getD i (0, 0)).2 else (S.getD i (0, 0)).1
#eval say "C45_ot_deliver" <| let R := otMockRecv (rnd 3) 40
  [(0, 40), (7, 20), (39, 1), (0, 13)].all fun (b, s) => okAnd (sliceChoice R.1 b s) fun c => okAnd (slice R.2 b s) fun m =>
    c.length == s && m.length == s && (List.range s).all fun i => c.getD i false == R.1.getD (b + i) false && m.getD i 0 == R.2.getD (b + i) 0
def trit (m l : List Blk) (p : Nat) : Nat := 2 * (bit m p).toNat + (bit l p).toNat
def top (x : Blk) : Nat := (((List.range 64).map fun i => 2 * (x.getLsbD (64 + i)).toNat + (x.getLsbD i).toNat).reverse.find? (· < 3)).getD 9
#eval say "C45_trit_partial" <| okAnd (tritSend hsh delta B) fun ((m0, l0), (m1, l1)) => okAnd (tritRecv hsh A) fun (c, m, l) =>
  m0.length == n && l0.length == n && m1.length == n && l1.length == n && c.length == n && m.length == n && l.length == n && ps.all fun p =>
    bit c p == choice p && trit m0 l0 p == top (hsh (low (B.getD p 0) 1)) && trit m1 l1 p == top (hsh (low (B.getD p 0) 1 ^^^ low delta 1)) &&
    trit m l p == if choice p then trit m1 l1 p else trit m0 l0 p
#eval say "C45_trit_mock" <| ps.all fun p => let S := tritMockSend n; let R := tritMockRecv n
  trit S.1.1 S.1.2 p < 3 && trit S.2.1 S.2.2 p < 3 && trit R.2.1 R.2.2 p == if bit R.1 p then trit S.2.1 S.2.2 p else trit S.1.1 S.1.2 p
def el (x : Blk) (i : Nat) : Bool × Bool := (x.getLsbD (2 * i), x.getLsbD (2 * i + 1))
def gm (a b : Bool × Bool) : Bool × Bool := ((a.1 && b.1) ^^ (a.2 && b.2), ((a.1 && b.2) ^^ (a.2 && b.1)) ^^ (a.2 && b.2))
def fromEl (f : Nat → Bool × Bool) : Blk := SecJoin.F2.mkBlock fun p => if p % 2 = 0 then (f (p / 2)).1 else (f (p / 2)).2
def x4 (p : Nat) : Bool × Bool := ((rnd (9000 + p)).getLsbD 3, (rnd (9000 + p)).getLsbD 4)
def A4 := ps.map fun p => fromEl fun i => if i = 0 then x4 p else
  let b := el (B.getD p 0) i; let d := gm (el delta i) (x4 p); (b.1 ^^ d.1, b.2 ^^ d.2)
#eval say "C45_f4" <| [true, false].all fun w => okAnd (f4Send w hsh delta B) fun ots => okAnd (f4Recv hsh A4) fun (m, lo, hi) =>
  ots.length == 4 && ots.all (·.length == n) && m.length == n && lo.length == n && hi.length == n && ps.all fun p =>
    (bit lo p, bit hi p) == x4 p && bit m p == bit (ots.getD ((x4 p).1.toNat + 2 * (x4 p).2.toNat) []) p &&
    bit (ots.getD 0 []) p == (hsh (low (B.getD p 0) 2)).getLsbD 0 && bit (ots.getD 1 []) p == (hsh (low (B.getD p 0) 2 ^^^ low delta 2)).getLsbD 0
def sel (r : BitVec 8) : Bool × Bool := (r.getLsbD 0, r.getLsbD 1)
#eval say "C46_mul" <| [true, false].all fun w => [0, 1, 2, 3].all fun (r : BitVec 8) => (List.range 8).all fun t => okAnd (F4.mul w (rnd t) r) fun y =>
  (List.range 64).all fun i => el y i == gm (el (rnd t) i) (sel r)
#eval say "C46_mulG" <| [0, 1, 2, 3].all fun (r : BitVec 8) => [0, 1, 2, 3].all fun (s : BitVec 8) => okAnd (F4.mulG r s) fun y =>
  y.toNat < 4 && sel y == gm (sel r) (sel s)
#eval say "C46_fromBlock" <| (List.range 8).all fun t => sel (F4.fromBlockG (rnd t)) == el (rnd t) 0 && (F4.fromBlockG (rnd t)).toNat < 4 &&
  el (F4.fromBlockF (rnd t)) 0 == (false, false) && (List.range 63).all fun i => el (F4.fromBlockF (rnd t)) (i + 1) == el (rnd t) (i + 1)
#eval say "C57_slli" <| (List.range 16).all fun s => (List.range 4).all fun t => slli16P s (rnd t) == slli16 s (rnd t)
#eval say "C57_shuffle_partial" <| (List.range 8).all fun t => let b := rnd t &&& BitVec.ofNat 128 0x7f7f7f7f7f7f7f7f7f7f7f7f7f7f7f7f
  shuffleP (rnd (t + 50)) b == shuffle (rnd (t + 50)) b

end SecJoin.Checks.Compress
