import Verif.Prf.SampleSimd
import Verif.Checks.Util
/-! Instances of C48 and C57 for the vector program of the sampler, evaluated. -/
namespace SecJoin.Checks.SampleSimd
open SecJoin.Mod3

/-- The digits of a byte, written out. -/
def dig (b k : Nat) : Nat := b / 3 ^ k % 3
/-- Both words of a lane after the bytes `bs`: five digits per byte below 243, the newest lowest. -/
def want (bs : List Nat) : Nat × Nat × Nat := bs.foldl (fun (l, m, s) b => if b < 243 then
  (((l * 32) + ((List.range 5).map fun k => dig b k % 2 * 2 ^ k).sum) % 2 ^ 32, ((m * 32) + ((List.range 5).map fun k => dig b k / 2 * 2 ^ k).sum) % 2 ^ 32, s + 5)
  else (l, m, s)) (0, 0, 0)
def words (s n : Nat) : List (BitVec 32) := (List.range n).map fun i => let w := rnd (s * 50 + i) (2 ^ 32); .ofNat 32 (if s % 3 == 0 then w ||| 0xF0000000 else if s % 3 == 1 then w else w ||| 0xFFF0)
def good (o : LaneOps) (s n : Nat) : Bool := let ws := words s n
  okAnd (sampleWords o ws zeroLanes) fun r => r.length == 4 && (List.range 4).all fun j => let x := r.getD j ⟨0, 0, 0⟩
    decide ((x.lsb.toNat, x.msb.toNat, x.size.toNat) = want (ws.map fun w => w.toNat / 256 ^ j % 256))

#eval say "C57_sampler" <| (List.range 20).all fun s => [0, 1, 8, 12].all fun n => good sseOps s n && good portableOps s n
#eval say "C48_vectors" <| (List.range 20).all fun s => good sseOps s 8 && good portableOps s 8

end SecJoin.Checks.SampleSimd
