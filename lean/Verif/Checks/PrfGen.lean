import Verif.PermCor.PrfGen
import Verif.Checks.PrfAlt
/-!
# Tests of C58, C66 and C67
-/
namespace SecJoin.Checks.PrfGen
open SecJoin.Mod3 (Block)
open SecJoin.AltMod SecJoin.PrfGen SecJoin.Checks.Prf SecJoin.Checks.PrfAlt

def at' (l : List Row) (i j : Nat) : Byte := (l.getD i []).getD j 0
def isPerm (l : List Nat) : Bool := l.mergeSort (· ≤ ·) == List.range l.length
def shape (n w : Nat) (l : List Row) : Bool := l.length == n && l.all (·.length == w)
def validCor (n W off : Nat) (s : PermCorSender) (r : PermCorReceiver) : Bool :=
  isPerm s.perm.pi && s.perm.pi.length == n && s.cols * 16 == W && r.cols * 16 == W && s.off == off && r.off == off && off ≤ W &&
  shape n W s.delta && shape n W r.a && shape n W r.b &&
  (List.range n).all fun i => (List.range W).all fun j => at' s.delta i j ^^^ at' r.b i j == at' r.a (s.perm.pi.getD i 0) j

/-- An injective function in place of AES. -/
def aes (k x : Block) : Block := (x * 0x9E3779B97F4A7C15F39CC0605CEDC835 ^^^ k) * 0x2545F4914F6CDD1D85EBCA77C2B2AE63 + 5
def env (seed m : Nat) : SecJoin.PrfGen.Prf := ⟨P, prg, key1, keyOts seed key1, corOle m, junk 256 (cols m), junk 256 (cols m), junk 256 (cols m)⟩
def blocks (bytes : Nat) := (bytes + 15) / 16
def bitsOf (b : Block) (j p : Nat) : Bool := b.getLsbD (8 * j + p)
def pt (hi lo : Nat) : Block := BitVec.ofNat 128 (hi * 2 ^ 64 + lo)
def s0 (off : Nat) : PermCorSender := ⟨⟨[]⟩, 0, [], off⟩
def r0 (off : Nat) : PermCorReceiver := ⟨0, [], [], off⟩

#eval say "C58_altMod" <| [(3, 20, 4), (2, 16, 0), (5, 33, 7)].all fun (n, bytes, off) => let W := 16 * blocks bytes; let hk : Block := 77
  okAnd (generate aes (env 1 (n * blocks bytes)) hk (Setup.init n bytes) ⟨rperm n n⟩ (s0 off) (r0 off)) fun (s, r, o) =>
    s.perm.pi == rperm n n && validCor n W off s r && bytes ≤ W && stepOk key1 o &&
    (List.range n).all fun i => [0, blocks bytes - 1].all fun jb => let b := prf key1 (aes hk (pt jb i))
      (List.range 16).all fun j => (List.range 8).all fun p => (at' r.a i (16 * jb + j)).getLsbD p == bitsOf b j p
#eval say "C58_refused" <| let run (S : Setup) (pi : List Nat) := isThrow (generate aes (env 1 4) (blk 1) S ⟨pi⟩ (s0 0) (r0 0))
  run ⟨2, 20, 0⟩ [1, 0] && run ⟨0, 20, 0⟩ [] && run ⟨0, 20, 4⟩ [] && run (Setup.init 2 20) [0] && run (Setup.init 2 20) [0, 2, 1] && run (Setup.init 2 0) [1, 0] && run (Setup.init 0 3) []
#eval say "C58_composed" <| let n := 4; let bytes := 18; let p0 := rperm 11 n; let p1 := rperm 5 n
  okAnd (composedBoth aes (env 1 8) (env 2 8) (blk 3) (blk 4) (Setup.init n bytes) ⟨p0⟩ ⟨p1⟩ ⟨9, s0 1, r0 2⟩ ⟨9, s0 2, r0 1⟩) fun (c0, c1) =>
    c0.idx == 0 && c1.idx == 1 && validCor n 32 1 c0.snd c1.rcv && validCor n 32 2 c1.snd c0.rcv &&
    c1.snd.perm.pi.map (c0.snd.perm.pi.getD · 0) == p1.map (p0.getD · 0)

def enc (x : LBlock) : LBlock := x * 5 + 12345 ^^^ (x <<< 77)
def gmw (x : List LBlock) : Res (List LBlock × List LBlock) := let m := (List.range x.length).map fun i => BitVec.ofNat 256 (rnd i (2 ^ 60) * 7 ^ 70); .ok (List.zipWith (· ^^^ ·) (x.map enc) m, m)
def lows : List (Nat × Nat × Nat) := [(1, 1, 0), (3, 16, 4), (4, 32, 0), (3, 40, 5), (2, 70, 80), (2, 0, 0)]
#eval say "C58_lowMC" <| lows.all fun (n, bytes, off) => okAnd (lowGenerate enc gmw n bytes ⟨rperm (n + 3) n⟩ (s0 off) (r0 off)) fun (s, r) =>
  s.perm.pi == rperm (n + 3) n && validCor n (16 * blocks bytes) off s r
#eval say "C58_lowMC_refused" <| let run (n : Nat) (pi : List Nat) := isThrow (lowGenerate enc gmw n 20 ⟨pi⟩ (s0 0) (r0 0))
  run 0 [] && run 2 [0] && run 2 [0, 1, 2] && run 0 [0]

def mat (seed n w : Nat) : Mat Row := ⟨w, (List.range n).map fun i => (List.range w).map fun j => BitVec.ofNat 8 (rnd (seed + 100 * i + j) 256)⟩
#eval say "C58_mock" <| [1, 4, 7].all fun n => [0, 3].all fun w => [PermOp.regular, .inverse].all fun op => [none, some (mat 9 n w)].all fun xs =>
  let pi := rperm (n + w) n; let x := mat 5 n w
  let input i j := at' x.rows i j ^^^ match xs with | none => 0 | some y => at' y.rows i j
  okAnd (mockBoth ⟨pi⟩ op x xs) fun (so, ro) => so.cols == w && ro.cols == w && shape n w so.rows && shape n w ro.rows &&
    (List.range n).all fun i => (List.range w).all fun j => let out i := at' so.rows i j ^^^ at' ro.rows i j
      match op with
      | .regular => out i == input (pi.getD i 0) j
      | .inverse => out (pi.getD i 0) == input i j
#eval say "C58_mock_refused" <| isThrow (mockRecv (mat 1 3 2) 2 2) && isThrow (mockRecv (mat 1 3 2) 3 1) && isThrow (mockRecv (mat 1 3 2) 4 2) &&
  [PermOp.regular, .inverse].all fun op => [1, 3].all fun rows => isThrow (mockSend ⟨[1, 0]⟩ op rows 2 (mat 1 rows 2)) && isThrow (mockSend2 ⟨[1, 0]⟩ op (mat 2 2 2) rows 2 (mat 1 2 2))

#eval say "C66_false" <| let d : ComposedPerm := ⟨9, ⟨⟨[5]⟩, 1, [], 3⟩, r0 2⟩; [[0], [0, 2, 1]].all fun pi =>
  okAnd (composedReturns (Setup.init 2 20) 1 d ((generate aes (env 1 4) (blk 1) (Setup.init 2 20) ⟨pi⟩ d.snd (r0 1)).map (·.1)) (.ok (r0 8))) (· == ⟨1, d.snd, r0 8⟩)
#eval say "C66_partial" <| isThrow (composedReturns ⟨2, 20, 0⟩ 1 ⟨9, s0 1, r0 2⟩ (.ok (s0 2)) (.ok (r0 2))) && isThrow (composedReturns (Setup.init 2 0) 0 ⟨9, s0 1, r0 2⟩ (.error .throw) (.ok (r0 2)))

/-- No value occurs twice. -/
def distinct {α : Type} [BEq α] : List α → Bool
  | [] => true
  | a :: l => !l.contains a && distinct l
-- The points of the PRF.
#eval say "C67_altMod" <| distinct ((List.range 5).flatMap fun i => (List.range 4).map fun j => aes 9 (SecJoin.PrfGen.blk j i)) &&
  distinct ((recvPoints 6 5).map (aes 3)) && distinct (([2 ^ 32 - 1, 2 ^ 32, 2 ^ 63, 2 ^ 64 - 1].flatMap fun i => [0, 1, 2 ^ 32, 2 ^ 63].map fun j => SecJoin.PrfGen.blk j i))
#eval say "C67_lowMC_false" <| let n := 4; let bytes := 70; let x := mat 3 n 70
  okAnd (lowGenerate enc gmw n bytes ⟨rperm 2 n⟩ (s0 0) (r0 0)) fun (s, r) => okAnd (applyBoth s r .regular x none) fun (_, _, msg, _, _) =>
    (List.range (n - 1)).all fun i => (List.range (70 - 32)).all fun j => at' msg.rows i (j + 32) ^^^ at' msg.rows (i + 1) j == at' x.rows i (j + 32) ^^^ at' x.rows (i + 1) j
#eval say "C67_lowMC_partial" <| distinct (([0, 1, 2, 77, 2 ^ 16, 2 ^ 31, 2 ^ 32 - 1]).map fun i => lowPoint 0 i)

end SecJoin.Checks.PrfGen
