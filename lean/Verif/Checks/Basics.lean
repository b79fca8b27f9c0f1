import Verif.Table.Model
import Verif.AggTree.Shuffle
import Verif.Checks.Util
/-! Tests for matrices, sharing, tables, files and the shuffles. They are not proofs. -/
namespace SecJoin.Checks.Basics
open SecJoin SecJoin.Table

def byte (s i j : Nat) : Byte := BitVec.ofNat 8 (rnd (s * 7919 + i * 131 + j) 256)
def mat (s n c : Nat) : Mat Row := ⟨c, (List.range n).map fun i => (List.range c).map fun j => byte s i j⟩
def bt (r : Row) (k : Nat) : Bool := (r.getD (k / 8) 0).getLsbD (k % 8)
def bits (r : List Row) (n k : Nat) : List Bool := (List.range n).flatMap fun i => (List.range k).map fun j => bt (r.getD i []) j
def bin (s n b : Nat) : BinMatrix := ⟨b, (b + 7) / 8, (mat s n ((b + 7) / 8)).rows⟩
def widths : List Nat := [1, 5, 8, 11, 16, 19, 24]
/-- Flip bit `k` of row `i`. -/
def flip (m : List Row) (i k : Nat) : List Row :=
  m.set i ((m.getD i []).set (k / 8) ((m.getD i []).getD (k / 8) 0 ^^^ (1#8 <<< (k % 8))))
def isOk {α : Type} [BEq α] (r : Res α) (a : α) : Bool := okAnd r (· == a)

#eval say "C15_trim" <| widths.all fun b => okAnd (trimMat (mat b 3 3) b) fun m => (List.range 3).all fun i => (List.range 24).all fun k =>
  bt (m.rows.getD i []) k == (decide (k < b) && bt ((mat b 3 3).rows.getD i []) k)
#eval say "C15_trim_refused" <| isThrow (trimMat (mat 1 3 2) 17)
#eval say "C15_areEqual" <| widths.all fun b => (List.range 3).all fun i => (List.range 24).all fun k =>
  isOk (areEqualMat (mat 1 3 3) ⟨3, flip (mat 1 3 3).rows i k⟩ b) (decide (b ≤ k)) && isOk (areEqualMat (mat 1 3 3) (mat 1 3 3) b) true
#eval say "C15_areEqual_refused" <| isThrow (areEqualMat (mat 1 3 3) (mat 1 2 3) 5) && isThrow (areEqualMat (mat 1 3 1) (mat 1 3 3) 9) && isThrow (areEqualMat (mat 1 3 3) (mat 1 3 1) 9)
#eval say "C15_areEqual_span" <| widths.all fun b => (List.range 24).all fun k =>
  isOk (areEqualSpan ((mat 1 1 3).rows.getD 0 []) ((flip (mat 1 1 3).rows 0 k).getD 0 []) b) (decide (b ≤ k))
#eval say "C15_binMatrix_eq" <| widths.all fun b => (List.range (8 * ((b + 7) / 8))).all fun k =>
  isOk ((bin 1 3 b).beq ⟨b, (b + 7) / 8, flip (bin 1 3 b).rows 1 k⟩) (decide (b ≤ k)) && isOk ((bin 1 3 b).beq (bin 1 2 b)) false &&
    isOk ((bin 1 3 b).beq { bin 1 3 b with bits := b - 1 }) false
#eval say "C09_bin" <| widths.all fun b => okAnd (shareBin (byte 9) (bin 4 3 b)) fun (s0, s1) => okAnd (revealBin s0 s1) fun r =>
  r.bits == b && r.rows.length == 3 && bits r.rows 3 b == bits (bin 4 3 b).rows 3 b && ([s0, s1, r].all fun s => (List.range 3).all fun i => (List.range' b (32 - b)).all fun k => !bt (s.rows.getD i []) k) &&
    bits s0.rows 3 b == bits (mat 9 3 3).rows 3 b
#eval say "C09_bytes" <| widths.all fun b => okAnd (shareBytes (byte 9) (bin 4 3 b).mat b) fun (s0, s1) => okAnd (revealBytes s0 s1) fun r =>
  bits r.rows 3 b == bits (bin 4 3 b).rows 3 b && ([s0, s1].all fun s => (List.range 3).all fun i => (List.range' b (32 - b)).all fun k => !bt (s.rows.getD i []) k)
#eval say "C09_bytes_refused" <| isThrow (shareBytes (byte 9) (mat 1 3 2) 8)
#eval say "C09_reveal_refused" <| isThrow (revealBin (bin 1 3 8) (bin 1 2 8)) && isThrow (revealBin (bin 1 3 8) (bin 1 3 7))
def wm (s : Nat) : Mat (List (BitVec 32)) := ⟨3, (List.range 4).map fun i => (List.range 3).map fun j => BitVec.ofNat 32 (rnd (s * 977 + i * 5 + j) (2 ^ 32))⟩
def wr32 (i j : Nat) : BitVec 32 := BitVec.ofNat 32 (rnd (i * 91 + j + 5) (2 ^ 32))
#eval say "C09_xor_words" <| okAnd (xorRevealMat (xorShareMat wr32 (wm 1)).1 (xorShareMat wr32 (wm 1)).2) fun r => r.rows == (wm 1).rows && r.cols == 3
#eval say "C09_add_words" <| okAnd (addRevealMat (addShareMat wr32 (wm 1)).1 (addShareMat wr32 (wm 1)).2) fun r => r.rows == (wm 1).rows && r.cols == 3
#eval say "C09_add_vec" <| let x := (wm 2).rows.flatten; List.zipWith (· + ·) (addShareVec (wr32 1) x).1 (addShareVec (wr32 1) x).2 == x
#eval say "C09_xor_vec" <| let x := (wm 2).rows.flatten; isOk (revealAdditivePerm (xorShareVec (wr32 0) (wr32 1) x).1 (xorShareVec (wr32 0) (wr32 1) x).2) x
#eval say "C09_vecU8_add" <| isOk (revealVecU8 [200, 3] [100, 9]) [44, 12]
#eval say "C13_roundtrip" <| isOk (fromHex (hex ((List.range 256).map (BitVec.ofNat 8))) 256) ((List.range 256).map (BitVec.ofNat 8))
#eval say "C13_encode_digits" <| hex [0x0f, 0xa9] == [48, 102, 97, 57]
#eval say "C13_case" <| isOk (fromHex [65, 70, 97, 102] 2) [0xaf, 0xaf] && isThrow (fromHex [71, 48] 1) && isThrow (fromHex [48, 103] 1) && isThrow (fromHex [47, 48] 1) && isThrow (fromHex [58, 48] 1) &&
  isThrow (fromHex [64, 48] 1) && isThrow (fromHex [96, 48] 1)
#eval say "C13_decode" <| isThrow (fromHex [48, 48, 48] 1) && isThrow (fromHex [48, 48] 2) && isOk (fromHex [49, 50] 1) [0x12]
#eval say "C59_storage_partial" <| (List.range 40).all fun b => (BinMatrix.zero 3 b).rows == List.replicate 3 (List.replicate ((b + 7) / 8) 0) && (BinMatrix.zero 3 b).bits == b
#eval say "C59_reshape" <| isOk ((bin 1 3 11).reshape 16) { bin 1 3 11 with bits := 16 } && isThrow ((bin 1 3 11).reshape 17)
#eval say "C59_subMatrix" <| okAnd ((bin 1 5 11).subMatrix 1 3) (fun m => m.rows == ((bin 1 5 11).rows.drop 1).take 3 && m.cols == 2) && okAnd ((bin 1 5 11).subMatrix 1 4) (fun m => m.rows.length == 4) &&
  isThrow ((bin 1 5 11).subMatrix 5 0) && isThrow ((bin 1 5 11).subMatrix 2 4)
#eval say "C60_signExtend" <| (List.range 63).all fun b => [5, 6, 7, 8].all fun s => let v : BitVec 64 := BitVec.ofNat 64 (rnd (s * 64 + b) (2 ^ 64))
  okAnd (signExtend64 v b) fun r => r.toInt == (v.setWidth (b + 1)).toInt
#eval say "C60_bit63_undefined" <| isUb (signExtend64 1 63)
#eval say "C60_fill" <| (List.range 24).all fun k => [1, 2, 3, 4].all fun s => let v := (mat s 1 3).rows.getD 0 []
  okAnd (getSign v k) fun b => okAnd (fillInplace v k b) fun r => b == bt v k && r.length == 3 && (List.range 24).all fun i => bt r i == if i ≤ k then bt v i else bt v k

def tbl (s n : Nat) (flags : List Byte) : Table :=
  ⟨flags, [⟨⟨[97, 98], .int, 16⟩, bin s n 16⟩, ⟨⟨[99], .bin, 19⟩, ⟨19, 3, (bin (s + 1) n 19).rows.map fun r => r.set 2 (r.getD 2 0 &&& 7)⟩⟩, ⟨⟨[100], .boolean, 1⟩, ⟨1, 1, (bin (s + 2) n 1).rows.map fun r => r.map (· &&& 1)⟩⟩,
    ⟨⟨[101], .string, 24⟩, ⟨24, 3, (List.range n).map fun i => [BitVec.ofNat 8 (97 + i), if i % 2 == 0 then 98 else 0, 0]⟩⟩]⟩
def rowsOf (t : Table) : List (List Row) := t.cols.map fun c => c.data.rows
def act : List Byte := [1, 0, 1, 1, 0]
def pick (l : List Nat) (t : Table) : List (List Row) := t.cols.map fun c => l.map fun i => c.data.rows.getD i []

#eval say "C14_extract" <| okAnd (tbl 1 5 act).extractActive fun r => r.isActive == [] && r.getColumnInfo == (tbl 1 5 act).getColumnInfo && rowsOf r == pick [0, 2, 3] (tbl 1 5 act)
#eval say "C14_extract_no_flags" <| isOk (tbl 1 5 []).extractActive (tbl 1 5 [])
#eval say "C14_permute" <| okAnd ((tbl 1 5 act).permute ⟨[2, 0, 4, 1, 3]⟩ .regular) (fun r => rowsOf r == pick [2, 0, 4, 1, 3] (tbl 1 5 act) && r.isActive == [1, 1, 0, 0, 1]) &&
  okAnd ((tbl 1 5 act).permute ⟨[2, 0, 4, 1, 3]⟩ .inverse) (fun r => rowsOf r == pick [1, 3, 0, 4, 2] (tbl 1 5 act) && r.isActive == [0, 1, 1, 0, 1])
def trimmed (t : Table) : List (List (List Bool)) := t.cols.map fun c => c.data.rows.map fun r => (List.range c.info.bits).map (bt r)
#eval say "C09_table" <| okAnd ((tbl 1 5 act).share (fun j => byte (20 + j)) (byte 3 0)) fun (a, b) => okAnd (reveal a b false) fun r => trimmed r == trimmed (tbl 1 5 act) && r.isActive == act &&
  a.isActive == (List.range 5).map (byte 3 0) && a.getColumnInfo == (tbl 1 5 act).getColumnInfo
#eval say "C10_reveal" <| okAnd ((tbl 1 5 act).share (fun j => byte (20 + j)) (byte 3 0)) fun (a, b) => okAnd (reveal a b true) (fun r => rowsOf r == pick [0, 2, 3] (tbl 1 5 act) && r.isActive == [] && r.getColumnInfo == a.getColumnInfo)
#eval say "C10_refused" <| isThrow (reveal (tbl 1 5 act) { tbl 1 5 act with cols := (tbl 1 5 act).cols.drop 1 } true) && isThrow (reveal (tbl 1 5 act) (tbl 1 4 act) true)
#eval say "C11_roundtrip" <| okAnd (readBin [7] (writeBin (tbl 1 5 act) ++ [1, 2])) fun (t, r) => t == ⟨[7], (tbl 1 5 act).cols⟩ && r == [1, 2]
def hd (cols nameSize ty b : Nat) : List Byte := u64Bytes cols ++ u64Bytes 0 ++ u64Bytes nameSize ++ List.replicate nameSize 97 ++ [BitVec.ofNat 8 ty] ++ u64Bytes b
#eval say "C11_refused" <| isThrow (readBin [] (hd 1 513 0 8)) && isThrow (readBin [] (hd 1 2 4 8)) && isThrow (readBin [] (hd 1 2 0 (2 ^ 14 + 1))) && okAnd (readBin [] (hd 1 512 3 (2 ^ 14))) fun _ => true
#eval say "C12_roundtrip_partial" <| okAnd (writeCSV (tbl 1 5 act)) fun x => okAnd (readCSV [7] ⟨x ++ [1, 2], true⟩) fun (t, r) => t == ⟨[7], (tbl 1 5 act).cols⟩ && r == ⟨[1, 2], true⟩
#eval say "C30_word_shuffle" <| let a : BitVec 16 := 0xb3c5; let b : BitVec 16 := 0x4e71; (List.range 16).all fun j => (cShuffleWord a b).getLsbD (2 * j) == a.getLsbD j && (cShuffleWord a b).getLsbD (2 * j + 1) == b.getLsbD j
#eval say "C30_word_unshuffle" <| let x : BitVec 32 := 0xb3c54e71; (List.range 16).all fun j => (cUnshuffleWord x).1.getLsbD j == x.getLsbD (2 * j) && (cUnshuffleWord x).2.getLsbD j == x.getLsbD (2 * j + 1)
def row (s n : Nat) : Row := (mat s 1 n).rows.getD 0 []
#eval say "C30_shuffle" <| [true, false].all fun sse => [1, 3, 4, 7, 16, 33, 38, 133].all fun n => okAnd (perfectShuffle sse (row 1 ((n + 1) / 2)) (row 2 ((n + 1) / 2)) n) fun r => r.length == n &&
  (List.range (8 * n)).all fun i => bt r i == bt (if i % 2 == 0 then row 1 ((n + 1) / 2) else row 2 ((n + 1) / 2)) (i / 2)
#eval say "C30_unshuffle" <| [true, false].all fun sse => [1, 3, 4, 7, 16, 33, 38, 133].all fun n => let o := (n + 1) / 2; okAnd (perfectUnshuffle sse (row 1 n) o o) fun (a, b) => a.length == o && b.length == o &&
  (List.range (8 * o)).all fun i => bt a i == bt (row 1 n) (2 * i) && bt b i == bt (row 1 n) (2 * i + 1)
#eval say "C30_refused" <| isThrow (perfectShuffle false (row 1 3) (row 1 4) 6) && isThrow (perfectShuffle false (row 1 3) (row 1 3) 7)
#eval say "C30_unshuffle_refused" <| isThrow (perfectUnshuffle false (row 1 6) 3 4) && isThrow (perfectUnshuffle false (row 1 6) 4 4)

end SecJoin.Checks.Basics
