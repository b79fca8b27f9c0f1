import Verif.Table.RevealNet
import Verif.Checks.Util
/-! Instances of C80. -/
namespace SecJoin.Checks.RevealNet
open SecJoin SecJoin.Table

def mat (s n c : Nat) : List Row := (List.range n).map fun i => (List.range c).map fun j => BitVec.ofNat 8 (rnd (s * 7919 + i * 131 + j) 256)
def col (nm bits : Nat) (rows : List Row) : Column := ⟨⟨[BitVec.ofNat 8 nm], .int, bits⟩, ⟨bits, (bits + 7) / 8, rows⟩⟩
def tbl (s n : Nat) (ws : List Nat) (fl : Bool) : Table := ⟨if fl then (List.range n).map fun i => BitVec.ofNat 8 (rnd (s + i) 2) else [], ws.zipIdx.map fun (w, i) => col (97 + i) w (mat (s + i) n ((w + 7) / 8))⟩
def xr (a b : Row) : Row := List.zipWith (· ^^^ ·) a b
def want (a b : Table) : Table := ⟨if a.isActive == [] then List.replicate a.rows 1 else xr a.isActive b.isActive,
  List.zipWith (fun (x y : Column) => { x with data := { x.data with rows := List.zipWith xr x.data.rows y.data.rows } }) a.cols b.cols⟩
def ok (s n : Nat) (ws : List Nat) (fl : Bool) : Bool := let a := tbl s n ws fl; let b := tbl (s + 50) n ws fl
  [[], [[1, 2]], revealRemote (tbl 3 2 [8] true)].all fun rest => okAnd (revealLocal a (revealRemote b ++ rest)) fun (t, ch) => t == want a b && ch == rest
#eval say "C80_reveal" <| ok 1 3 [8, 16] true && ok 2 1 [12] false && ok 3 5 [1, 64, 8] true && ok 4 2 [7] true && ok 5 4 [8, 8, 8, 24] false
#eval say "C80_sequence" <|
  let as := [tbl 1 3 [8, 16] true, tbl 2 2 [8] false, tbl 3 3 [24] true]; let bs := [tbl 11 3 [8, 16] true, tbl 12 2 [8] false, tbl 13 3 [24] true]
  okAnd (revealLocals as (revealRemotes bs ++ [[9]])) fun (o, ch) => o == List.zipWith want as bs && ch == [[9]]
#eval say "C80_sent" <| revealRemote (⟨[1, 0], [col 97 8 [[5], [6]], col 98 16 [[1, 2], [3, 4]]]⟩) == [[5, 6], [1, 2, 3, 4], [1, 0]] && revealRemote (⟨[], [col 97 8 [[5], [6]]]⟩) == [[5, 6]]
#eval say "C80_rows_refused" <| isThrow (revealLocal (tbl 1 3 [8, 16] true) (revealRemote (tbl 1 4 [8, 16] true))) && isThrow (revealLocal (tbl 1 3 [8, 16] false) (revealRemote (tbl 1 2 [8, 16] false))) &&
  isThrow (revealLocal (tbl 1 3 [8, 16] false) (revealRemote (tbl 1 3 [8, 24] false)))
#eval say "C80_flags_left" <| okAnd (revealLocal (tbl 1 3 [8] false) (revealRemote (tbl 2 3 [8] true))) fun (t, ch) => t.isActive == [1, 1, 1] && ch == [(tbl 2 3 [8] true).isActive]
#eval say "C80_flags_wait" <| isDiv (revealLocal (tbl 1 3 [8] true) (revealRemote (tbl 2 3 [8] false))) && isDiv (revealLocal (tbl 1 3 [8] true) [])
#eval say "C80_flags_taken" <| let a := tbl 1 3 [8] true
  okAnd (revealLocal a (revealRemote (tbl 2 3 [8] false) ++ [[4, 5, 6], [1]])) fun (t, ch) => t.isActive == xr a.isActive [4, 5, 6] && ch == [[1]]
#eval say "C80_shape" <| okAnd (revealLocal (tbl 1 4 [8] false) (revealRemote (tbl 2 2 [16] false))) fun (t, ch) => t.rows == 4 && ch == []
end SecJoin.Checks.RevealNet
