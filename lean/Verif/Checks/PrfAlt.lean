import Verif.Checks.Prf
/-!
# Tests of C54
-/
namespace SecJoin.Checks.PrfAlt
open SecJoin.Mod3 (Block)
open SecJoin.AltMod SecJoin.Checks.Prf


def Gm (q : Nat) : List (List Byte) := bmat (20 + q) 128 16
def Bm : List (List Byte) := bmat 30 128 16
def code : F3.Code := ⟨256, 512, [rperm 7 512, rperm 8 512]⟩
def P : Pub := ⟨(List.range 3).map fun q => tables (Gm q) 16, code, tables Bm 16⟩
def Mx : List (List Nat) := (F3.getMatrix code).toOption.getD []
def parts (x : Block) : List Block := x :: (List.range 3).map fun q => mulG (Gm q) x
/-- The end of the evaluation with the matrices. -/
def prfEnd (key : List Bool) (parts : List Block) : Block :=
  let h := (List.range 512).map fun r => if key.getD r false && (parts.getD (r / 128) 0).getLsbD (r % 128) then 1 else 0
  let w := Mx.map fun row => dot row h % 2 == 1
  F2.mkBlock (fun p => w.getD p false) ^^^ mulG Bm (F2.mkBlock fun p => w.getD (128 + p) false)
def prf (key : List Bool) (x : Block) : Block := prfEnd key (parts x)
def key1 := bools 5 512
def key2 := bools 6 512
def cols (n : Nat) := (n + 127) / 128

def big := inputs 8 131
#eval say "C54_eval" <| okAnd (eval P (key1.getD · false) big (junk 256 2) 131) fun y => y.length == 131 &&
    [0, 7, 127, 128, 130].all (fun i => y.getD i 0 == prf key1 (big.getD i 0))
#eval say "C54_eval_throws" <| isThrow (eval P (key1.getD · false) (inputs 1 2) (junk 256 1) 3) && isThrow (eval P (key1.getD · false) (inputs 1 2) (junk 256 1) 1)
def aesJunk (q k : Nat) : List Block := inputs (q * 31 + k) 128
#eval say "C54_eval_aes" <| [(0, 3), (1, 129)].all fun (j, n) => let xs := inputs 4 n; okAnd (evalAes P (fun b => blk (b.toNat % 100003)) (fun q k => aesJunk (q + j) k)
    (key1.getD · false) xs (junk 256 (cols n)) n) fun y => y.length == n && [0, 2, n - 1].all fun i => let x := xs.getD i 0
      y.getD i 0 == prfEnd key1 (x :: (List.range 3).map fun q => blk ((x ^^^ (BitVec.ofNat 128 ((q + 1) * (2 ^ 64 + 1)))).toNat % 100003))

def keyOts (s : Nat) (k : List Bool) : KeyOts := ⟨gens s 512, chosen k (gens s 512)⟩
def corOle (n : Nat) : Mod2Cor := let o := oles 3 (cols n * 512); .ole (cut (o.map (·.1)) [200, cols n * 512 - 200]) (cut (o.map (·.2)) [200, cols n * 512 - 200])
def corF4 (n : Nat) : Mod2Cor := let o := f4s 3 (cols n * 256); .f4 (cut (o.map (·.1)) [201, cols n * 256 - 201]) (cut (o.map (·.2)) [201, cols n * 256 - 201])
def stepOk (k : List Bool) (o : KeyOts) : Bool := sameG o.rcv (chosen k o.snd)
def shares (kx : List Bool) (xs : List Block) (y : List Block × List Block) (idx : List Nat) : Bool := y.1.length == xs.length && y.2.length == xs.length &&
  idx.all fun i => y.1.getD i 0 ^^^ y.2.getD i 0 == prf kx (xs.getD i 0)
def kx := List.zipWith (· ^^ ·) key1 key2

#eval say "C54_recvInput_partial" <| okAnd (evalRecvInput P prg key1 key2 (keyOts 1 key1) (corOle 131) big 131 131 131 (junk 256 2) (junk 256 2)) fun (y, o) =>
  stepOk key1 o && shares kx big y [0, 127, 128, 130]
#eval say "C54_recvInput_f4" <| let xs := inputs 5 2
  okAnd (evalRecvInput P prg key1 (List.replicate 512 false) (keyOts 1 key1) (corF4 2) xs 2 2 2 (junk 256 1) (junk 256 1)) fun (y, o) =>
  stepOk key1 o && shares key1 xs y [0, 1]
def sharedRun (cor : Mod2Cor) (n : Nat) := let xs := inputs 6 n; let ys := inputs 7 n; let t := tritOts 9 (512 * cols n); let c := [100, 512 * cols n - 100]
  okAnd (evalShared P prg key1 key2 (keyOts 1 key1) (keyOts 2 key2) (cut (t.map (·.1)) c) (cut (t.map (·.2)) c) cor xs ys n n n (junk 256 (cols n)) (junk 256 (cols n)))
    fun (y, o, o') => stepOk key1 o && stepOk key2 o' && shares kx (List.zipWith (· ^^^ ·) xs ys) y [0, n - 1]
#eval say "C54_shared_partial" <| sharedRun (corOle 3) 3
#eval say "C54_shared_f4" <| sharedRun (corF4 129) 129

def run (n mS mR l : Nat) : Bool := isThrow (evalRecvInput P prg key1 key2 (keyOts 1 key1) (corF4 2) (inputs 5 l) n mS mR (junk 256 1) (junk 256 1))
#eval say "C54_throws" <| run 0 0 0 0 && run 2 2 2 1 && run 2 2 3 2 && run 2 1 2 2 && run 2 2 1 2
def runS (n mS mR l l' : Nat) : Bool := let t := tritOts 9 512
  isThrow (evalShared P prg key1 key2 (keyOts 1 key1) (keyOts 2 key2) [t.map (·.1)] [t.map (·.2)] (corF4 2) (inputs 5 l) (inputs 6 l') n mS mR (junk 256 1) (junk 256 1))
#eval say "C54_shared_throws" <| runS 0 0 0 0 0 && runS 2 2 2 1 2 && runS 2 2 2 2 1 && runS 2 2 3 2 2 && runS 2 1 2 2 2 && runS 2 2 1 2 2
def runC (cor : Mod2Cor) (n : Nat) : Bool := let t := tritOts 9 (512 * cols n)
  isThrow (evalRecvInput P prg key1 key2 (keyOts 1 key1) cor (inputs 5 n) n n n (junk 256 (cols n)) (junk 256 (cols n))) &&
  isThrow (evalShared P prg key1 key2 (keyOts 1 key1) (keyOts 2 key2) [t.map (·.1)] [t.map (·.2)] cor (inputs 5 n) (inputs 6 n) n n n (junk 256 (cols n)) (junk 256 (cols n)))
#eval say "C54_cor_throws" <| [corOle 2, corF4 2].all (runC · 129) && [corOle 129, corF4 129].all (runC · 2) && (let o := oles 3 256; runC (.ole [o.map (·.1)] [o.map (·.2)]) 2) &&
  (let o := oles 3 512; runC (.ole [o.map (·.1)] [(o.map (·.2)).take 256]) 2 && runC (.ole [(o.map (·.1)).take 256] [o.map (·.2)]) 2) &&
  (let o := f4s 3 256; runC (.f4 [o.map (·.1)] [(o.map (·.2)).take 128]) 2 && runC (.f4 [(o.map (·.1)).take 128] [o.map (·.2)]) 2) &&
  (let o := f4s 3 512; runC (.f4 [(o.map (·.1)).take 256] [o.map (·.2)]) 2 && runC (.f4 [o.map (·.1)] [(o.map (·.2)).take 256]) 2)
#eval say "C54_modes" <| [true, false].all fun a => [true, false].all fun b => [KeyMode.senderOnly, .shared].all fun k =>
  okAnd (branch k .receiverOnly a b) (· == .receiverOnly) && (if a && b then okAnd (branch k .shared a b) (· == .shared) else isThrow (branch k .shared a b))

end SecJoin.Checks.PrfAlt
