import Verif.Cor.F4Vole
import Verif.Checks.Util
/-! Instances of C73 and C74, evaluated. -/
namespace SecJoin.Checks.F4Vole
open SecJoin.F4Vole
open SecJoin.F4 (Block)

def blk (s : Nat) : Block := BitVec.ofNat 128 (rnd (2 * s) (2 ^ 64) * 2 ^ 64 + rnd (2 * s + 1) (2 ^ 64))
abbrev G := Bool × Bool
def el (x : Block) (i : Nat) : G := (x.getLsbD (2 * i), x.getLsbD (2 * i + 1))
def sc (r : BitVec 8) : G := (r.getLsbD 0, r.getLsbD 1)
def add (a b : G) : G := (a.1 ^^ b.1, a.2 ^^ b.2)
def mulG (a b : G) : G := ((a.1 && b.1) ^^ (a.2 && b.2), ((a.1 && b.2) ^^ (a.2 && b.1)) ^^ (a.2 && b.2))
def vole (delta a b : Block) (c : G) : Bool := (List.range 63).all fun k => el a (k + 1) == add (el b (k + 1)) (mulG (el delta (k + 1)) c)
def raw (delta : Block) (A B : List Block) : Bool := A.length == B.length && (A.zip B).all fun (a, b) => vole delta a b (el a 0)

def lpn (n : Nat) : Params := ⟨3, 2 * n + 1, n + 4⟩
def s0 : Sender := ⟨false, 0, ⟨0, 0, 0⟩, false, false, [], .exConv⟩
def r0 : Receiver := ⟨false, 0, ⟨0, 0, 0⟩, false, false, [], [], [], .exConv⟩
def ops (n : Nat) : List EncOp := ((List.range n).map fun i => .plus i i (n + i)) ++
  (List.range n).flatMap fun i => [.mulConst (2 * n + 1) i, .plus ((i + 1) % n) ((i + 1) % n) (2 * n + 1), .copy (n + i) i, .zero (2 * n), .plus i i (2 * n)]
def draws (s : Nat) : List Block := (List.range 40).map fun i => if i % 3 == 0 then blk (s + i) &&& ~~~3 else blk (s + i)
def pts (n : Nat) : List Nat := [2 * n, 1, n]
def delta : Block := blk 77
def W (i : Nat) : Block := blk (5000 + i)
def bb (i : Nat) : Block := blk (9000 + i)
/-- The scalars that are not zero. -/
def want (s : Nat) : List G := (((draws s).map fun d => el d 0).filter (· != (false, false))).take 3
def ready (n : Nat) : Res (Sender × Receiver) := prepare true lpn s0 r0 delta n (draws 3) (pts n) bb

#eval say "C73_sample" <| okAnd (batchRequest lpn s0 r0 9 (draws 5) (pts 9)) fun (s, r, c) => c.map sc == want 5 && c.all (fun x => decide (x.toNat < 4)) &&
  r.baseC == c && r.points == pts 9 && s.configured && r.configured && s.req == 9 && r.req == 9 && s.par == lpn 9 && r.par == lpn 9
#eval say "C73_prepare" <| okAnd (ready 9) fun (s, r) => s.hasBase && r.hasBase && s.req == 9 && r.par == lpn 9 && r.baseA.length == 3 && s.baseB.length == 3 &&
  r.baseC.map sc == want 3 && (r.baseA ++ s.baseB).all (fun x => el x 0 == (false, false)) && r.points == pts 9 &&
  ((r.baseA.zip s.baseB).zip r.baseC).all fun ((a, b), c) => vole delta a b (sc c)
/-- The codeword of the noise vector. -/
def noise (n : Nat) (c : List (BitVec 8)) : List Block := (List.range (2 * n + 1)).map fun p => ((((pts n).zip c).find? (·.1 == p)).map fun q => q.2.setWidth 128).getD 0
#eval say "C73_silent" <| [4, 7, 9].all fun n => [n, n - 1].all fun k => okAnd (ready n) fun (s, r) => [true, false].all fun w => [Mult.exConv, .tungsten].all fun m =>
  okAnd (silentInplace w { s with mult := m } { r with mult := m } k W 1 (ops n)) fun (A, B) => A.length == n && raw delta A B &&
    okAnd (silent w { s with mult := m } { r with mult := m } k W 1 (ops n)) (fun (a, b) => a == A.take k && b == B.take k) &&
    okAnd (encode w m 1 (ops n) n (noise n r.baseC)) (fun C => C.map (el · 0) == A.map (el · 0) && C.any (fun x => el x 0 != (false, false)))
def chc (n : Nat) : List (BitVec 8) := (List.range n).map fun i => BitVec.ofNat 8 (rnd (i + 44) 4)
#eval say "C73_chosen" <| [0, 1, 4, 5, 7, 9].all fun n => okAnd (ready (n + 3)) fun (s, r) =>
  okAnd (chosen true s r delta (chc n) n W 1 (ops (n + 3))) fun (a, b) => a.length == n && b.length == n && ((a.zip b).zip (chc n)).all fun ((a, b), c) => vole delta a b (sc c)
def bit (l : List Block) (p : Nat) : Bool := (l.getD (p / 128) 0).getLsbD (p % 128)
def H (x : Block) : Block := (x * 0x9E3779B97F4A7C15F39CC0605CEDC835) >>> 41
#eval say "C73_batch" <| okAnd (batchRequest lpn s0 r0 256 (draws 5) (pts 256)) fun (s, r, c) =>
  let cs := chc 2 ++ c ++ chc 4
  okAnd (ready 9) fun (sb, rb) => okAnd (chosen true sb rb delta cs 9 W 1 (ops 9)) fun (a, b) =>
    okAnd (batchTask false H s r delta ((a.drop 2).take 3) ((b.drop 2).take 3) (fun i => blk (77000 + i)) 1 (ops 256)) fun (ots, m, lo, hi) =>
      ots.length == 4 && ots.all (·.length == 2) && m.length == 2 && lo.length == 2 && hi.length == 2 &&
      (List.range 256).all fun p => bit m p == bit (ots.getD ((bit lo p).toNat + 2 * (bit hi p).toNat) []) p
def okGet : Res Block → Block | .ok x => x | _ => 0
#eval say "C73_base" <| okAnd (batchRequest lpn s0 r0 9 (draws 5) (pts 9)) fun (s, r, c) =>
  let b := (List.range 3).map fun i => blk (i + 60)
  let a := (b.zip c).map fun (b, c) => BitVec.ofNat 128 3 ^^^ b ^^^ (okGet (F4.mul true delta c))
  okAnd (s.setBase 13 b) fun s' => okAnd (r.setBase 13 a) fun r' => s'.hasBase && r'.hasBase && (r'.baseA ++ s'.baseB).all (fun x => el x 0 == (false, false)) &&
    ((r'.baseA.zip s'.baseB).zip c).all fun ((a, b), c) => vole delta a b (sc c)
def sx : Sender := s0.configure lpn 9
def rx : Receiver := r0.configure lpn 9
#eval say "C73_refused_partial" <| isThrow ({ rx with malicious := true }.sampleVals (draws 5) (pts 9)) &&
  (okAnd (ready 9) fun (s, r) => isThrow (silentInplace true s r 10 W 1 (ops 9)) && isThrow (silentInplace true { s with req := 8 } r 9 W 1 (ops 9)) &&
    isThrow (silentInplace true s { r with req := 8 } 9 W 1 (ops 9))) &&
  isThrow (sx.setBase 12 [1, 2, 3]) && isThrow (sx.setBase 13 [1, 2]) && isThrow (sx.setBase 13 [1, 2, 3, 4]) && isThrow ({ sx with malicious := true }.setBase 13 [1, 2, 3]) &&
  isThrow (s0.setBase 0 []) && isThrow (rx.setBase 12 [1, 2, 3]) && isThrow (r0.setBase 0 []) && isThrow (encode true .other 1 (ops 9) 9 (List.replicate 19 0)) &&
  isThrow (r0.sampleVals (draws 5) (pts 9))
#eval say "C73_false" <| okAnd (ready 9) fun (s, r) => okAnd (r.setBase 13 [1, 2]) fun r' => isUb (silentInplace true s r' 9 W 1 (ops 9))

def flip (x : Block) (k : Nat) : Block := x ^^^ (1#128 <<< k)
def flipAt (l : List Block) (i k : Nat) : List Block := l.set i (flip (l.getD i 0) k)
def accepts (r : Res Unit) : Bool := r == .ok ()
#eval say "C74_final" <| okAnd (ready 9) fun (s, r) => okAnd (silentInplace true s r 9 W 1 (ops 9)) fun (A, B) => accepts (checkFinal true delta A B) &&
  accepts (checkFinal false delta A (B.map fun x => flip (flip x 1) 0)) &&
  [(0, 2), (3, 127), (8, 64), (5, 63)].all (fun (i, k) => isThrow (checkFinal true delta (flipAt A i k) B) && isThrow (checkFinal true delta A (flipAt B i k))) &&
  isThrow (checkFinal true delta (flipAt A 0 0) B) && isThrow (checkFinal true delta (flipAt A 8 1) B) && isThrow (checkFinal true (flip delta 9) A B) &&
  isThrow (checkFinal true delta (A.take 8) B) && isThrow (checkFinal true delta A (B.take 8)) && accepts (checkFinal true (flip delta 1) A B)
#eval say "C74_batch" <| okAnd (ready 9) fun (s, r) => accepts (checkBatchBase true delta r s.baseB) && isThrow (checkBatchBase true delta r (s.baseB.take 2)) &&
  [(0, 2), (1, 127), (2, 64)].all (fun (i, k) => isThrow (checkBatchBase true delta r (flipAt s.baseB i k)) && isThrow (checkBatchBase true delta { r with baseA := flipAt r.baseA i k } s.baseB)) &&
  accepts (checkBatchBase true (flip delta 0) { r with baseA := flipAt r.baseA 1 1 } (flipAt s.baseB 2 0)) &&
  isThrow (checkBatchBase true delta { r with baseC := r.baseC.map fun c => c ^^^ 1 } s.baseB) && isThrow (checkBatchBase true (flip delta 70) r s.baseB) &&
  isThrow (checkBatchBase true delta r (s.baseB ++ [0]))
#eval say "C74_sparse" <| okAnd (ready 9) fun (s, r) => okAnd (sparse s r W) fun (A, B) => A.length == 19 && accepts (checkRT true delta r A B s.baseB) &&
  [(0, 2), (18, 127), (1, 64), (9, 63), (10, 5)].all (fun (i, k) => isThrow (checkRT true delta r (flipAt A i k) B s.baseB) && isThrow (checkRT true delta r A (flipAt B i k) s.baseB)) &&
  [(0, 2), (1, 127), (2, 64)].all (fun (i, k) => isThrow (checkRT true delta r A B (flipAt s.baseB i k)) && isThrow (checkRT true delta { r with baseA := flipAt r.baseA i k } A B s.baseB)) &&
  [0, 1, 2, 9, 10, 18].all (fun i => isThrow (checkRT true delta r (flipAt A i 0) B s.baseB) && isThrow (checkRT true delta r (flipAt A i 1) B s.baseB)) &&
  -- a choice together with its multiple of delta, away from the points: only the noise is wrong
  [0, 2, 8, 10, 17].all (fun i => isThrow (checkRT true delta r (A.set i ((A.getD i 0 ^^^ (delta &&& ~~~3)) ||| 1)) B s.baseB)) &&
  -- points that are not distinct
  isThrow (checkRT true delta { r with points := [1, 1, 1], baseC := [1, 1, 1], baseA := s.baseB.map fun x => x ^^^ (delta &&& ~~~3) }
    (B.set 1 ((B.getD 1 0 ^^^ (delta &&& ~~~3)) ||| 1)) B s.baseB) &&
  isThrow (checkRT true delta { r with points := [1, 9, 9], baseC := [1, 1, 1], baseA := s.baseB.map fun x => x ^^^ (delta &&& ~~~3) }
    ((B.set 1 ((B.getD 1 0 ^^^ (delta &&& ~~~3)) ||| 1)).set 9 ((B.getD 9 0 ^^^ (delta &&& ~~~3)) ||| 1)) B s.baseB) &&
  -- another choice at a point, with the right multiple
  isThrow (checkRT true delta r (A.set 1 (B.getD 1 0)) B s.baseB) && isThrow (checkRT true delta r (A.set 9 (B.getD 9 0)) B s.baseB) &&
  -- the first element of base correlations does not matter
  accepts (checkRT true delta { r with baseA := flipAt r.baseA 1 1 } A B (flipAt s.baseB 2 0)) &&
  accepts (checkRT false (flip delta 1) r A (B.map (flip · 0)) s.baseB)
#eval say "C74_accepts" <| [4, 9].all fun n => okAnd (ready n) fun (s, r) => okAnd (sparse s r W) fun (A, B) => accepts (checkRT true delta r A B s.baseB) &&
  okAnd (silentInplace true s r n W 1 (ops n)) (fun (A, B) => accepts (checkFinal true delta A B)) && accepts (checkBatchBase true delta r s.baseB)

end SecJoin.Checks.F4Vole
