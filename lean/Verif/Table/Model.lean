import Verif.Util.Model
/-!
# Plaintext tables

Model of `/repo/secure-join/Join/Table.{h,cpp}`, of `reveal(Table, Table)` in `Util/Util.h` and of
`lessThan` / `sort` in `Sort/RadixSort.cpp`.

Text and file contents are lists of bytes.
-/
namespace SecJoin

/-- `enum class ColumnType`, Table.h 52-58. -/
inductive ColumnType where
  | int | boolean | string | bin
deriving DecidableEq, Repr

/-- The numeric value of a column type. -/
def ColumnType.toNat : ColumnType → Nat
  | .int => 0
  | .boolean => 1
  | .string => 2
  | .bin => 3

/-- The cast `(ColumnType)type` for a checked value (Table.cpp 83-85, 175-178). -/
def ColumnType.ofCode : Nat → Option ColumnType
  | 0 => some .int
  | 1 => some .boolean
  | 2 => some .string
  | 3 => some .bin
  | _ => none

/-- `struct ColumnInfo`, Table.h 60-87; `operator==` compares all three fields. -/
structure ColumnInfo where
  name : List Byte
  type : ColumnType
  bits : Nat
deriving DecidableEq, Repr

/-- The constructor `ColumnInfo(name, type, size)`, Table.h 63-70. -/
def mkColumnInfo (name : List Byte) (type : ColumnType) (bits : Nat) : Res ColumnInfo := do
  throwIf (type == .string && bits % 8 != 0)
  .ok ⟨name, type, bits⟩

/-- `class Column`, Table.h 89-133. -/
structure Column where
  info : ColumnInfo
  data : BinMatrix
deriving DecidableEq, Repr

/-- `class Table`, Table.h 158-161. -/
structure Table where
  isActive : List Byte
  cols : List Column
deriving DecidableEq, Repr

namespace Table

/-- `rows()`, Table.h 214. -/
def rows (t : Table) : Nat :=
  match t.cols with
  | [] => 0
  | c :: _ => c.data.rows.length

/-- `getColumnInfo()`, Table.h 195-203. -/
def getColumnInfo (t : Table) : List ColumnInfo := t.cols.map (·.info)

/-- The loop of `init`, Table.h 180-191; `names` are the names seen so far. -/
def initLoop (rows : Nat) (names : List (List Byte)) : List ColumnInfo → Res (List Column)
  | [] => .ok []
  | c :: t => do
    throwIf (names.contains c.name)
    let i ← mkColumnInfo c.name c.type c.bits
    let r ← initLoop rows (c.name :: names) t
    .ok (⟨i, BinMatrix.zero rows c.bits⟩ :: r)

/-- `init(rows, columns)` of a fresh table, Table.h 174-192. -/
def init (rows : Nat) (columns : List ColumnInfo) : Res Table := do
  let c ← initLoop rows [] columns
  .ok ⟨[], c⟩

/-- `Column::operator==`, Table.h 125-132: the type is not compared here. -/
def columnBeq (a b : Column) : Res Bool :=
  if a.info.bits ≠ b.info.bits then .ok false
  else if a.info.name ≠ b.info.name then .ok false
  else a.data.beq b.data

/-- The loop of `Table::operator==`, Table.h 250-254. -/
def colsBeq : List Column → List Column → Res Bool
  | a :: as, b :: bs => do
    let e ← columnBeq a b
    if !e then .ok false else colsBeq as bs
  | _, _ => .ok true

/-- `Table::operator==`, Table.h 243-257. The active flags are not compared. -/
def beq (a b : Table) : Res Bool :=
  if a.getColumnInfo ≠ b.getColumnInfo then .ok false
  else if a.rows ≠ b.rows then .ok false
  else colsBeq a.cols b.cols

/-- `copyBytes(mData[curPtr], mData[i])`, Table.cpp 303-305. -/
def copyRow (c : Column) (dst src : Nat) : Res Column := do
  let r ← rd c.data.rows src
  let rows ← wr c.data.rows dst r
  .ok { c with data := { c.data with rows := rows } }

/-- The loop of `extractActive`, Table.cpp 296-311: `k` rows left, at row `i`, `cur` is `curPtr`. -/
def extractLoop (isActive : List Byte) : Nat → Nat → Nat → List Column → Res (Nat × List Column)
  | 0, _, cur, cols => .ok (cur, cols)
  | k + 1, i, cur, cols => do
    let a ← rd isActive i
    if a = 1 then
      if cur ≠ i then do
        let cols ← mapRes (fun c => copyRow c cur i) cols
        extractLoop isActive k (i + 1) (cur + 1) cols
      else extractLoop isActive k (i + 1) (cur + 1) cols
    else extractLoop isActive k (i + 1) cur cols

/-- Final `mData.resize(curPtr, bits)`, Table.cpp 316: `oc::Matrix::resize` to fewer rows of the
same width keeps the first rows. `BinMatrix::resize` recomputes the width as `divCeil(bits, 8)`;
any other width before is given the outcome `ub` (the rows would be cut at other places). -/
def shrink (cur : Nat) (c : Column) : Res Column :=
  if c.data.cols ≠ divCeil c.data.bits 8 then .error .ub
  else .ok { c with data := { c.data with rows := c.data.rows.take cur } }

/-- `extractActive()`, Table.cpp 290-318. -/
def extractActive (t : Table) : Res Table :=
  if t.isActive.length = 0 then .ok t
  else do
    let (cur, cols) ← extractLoop t.isActive t.rows 0 0 t.cols
    let cols ← mapRes (shrink cur) cols
    .ok ⟨[], cols⟩

/-- One column of `permute`, Table.cpp 242-245. -/
def permuteCol (p : Perm) (op : PermOp) (c : Column) : Res Column := do
  let temp := BinMatrix.zero c.data.rows.length c.data.bits
  let r ← p.apply c.data.mat temp.mat op
  .ok { c with data := { temp with rows := r.rows } }

/-- `permute(perm, op)`, Table.cpp 238-258. -/
def permute (t : Table) (p : Perm) (op : PermOp) : Res Table := do
  let cols ← mapRes (permuteCol p op) t.cols
  if t.isActive.length > 0 then do
    let a ← p.applyVec 0 t.isActive op
    .ok ⟨a, cols⟩
  else .ok ⟨t.isActive, cols⟩

/-- The column loop of `share`, Table.cpp 266-278; `rnd j` is the randomness drawn for column `j`. -/
def shareCols (rnd : Nat → Nat → Nat → Byte) : Nat → List Column → Res (List Column × List Column)
  | _, [] => .ok ([], [])
  | j, c :: t => do
    let (d0, d1) ← shareBin (rnd j) c.data
    let (t0, t1) ← shareCols rnd (j + 1) t
    .ok (⟨c.info, d0⟩ :: t0, ⟨c.info, d1⟩ :: t1)

/-- `share(shares, prng)`, Table.cpp 260-287; `rndF` is the randomness for the flags. -/
def share (rnd : Nat → Nat → Nat → Byte) (rndF : Nat → Byte) (t : Table) : Res (Table × Table) := do
  let (c0, c1) ← shareCols rnd 0 t.cols
  let f0 := (List.range t.isActive.length).map rndF
  .ok (⟨f0, c0⟩, ⟨List.zipWith (· ^^^ ·) f0 t.isActive, c1⟩)

/-- Computation of `size` in `reveal`, Util.h 261-265: `k` rows left, at row `i`. A failing `assert`
is undefined behaviour. -/
def countLoop (f0 f1 : List Byte) : Nat → Nat → Nat → Res Nat
  | 0, _, size => .ok size
  | k + 1, i, size => do
    let a ← rd f0 i
    let b ← rd f1 i
    if (a ^^^ b).toNat < 2 then countLoop f0 f1 k (i + 1) (size + (a ^^^ b).toNat)
    else .error .ub

/-- The byte loop of `reveal`, Util.h 279-282: `c` bytes of the row. -/
def revealRow (c : Nat) (a b : Row) : Res Row :=
  if c ≤ a.length ∧ c ≤ b.length then .ok (xorRow (a.take c) (b.take c)) else .error .ub

/-- Writing row `i` of one column of `ret`, Util.h 277-283. -/
def revealCell (i : Nat) (r : Column) (a b : Column) : Res Column := do
  let x ← rd a.data.rows i
  let y ← rd b.data.rows i
  let z ← revealRow r.data.cols x y
  let rows ← wr r.data.rows i z
  .ok { r with data := { r.data with rows := rows } }

/-- The column loop, Util.h 277-283. -/
def revealCells (i : Nat) : List Column → List Column → List Column → Res (List Column)
  | r :: rs, a :: as, b :: bs => do
    let c ← revealCell i r a b
    let t ← revealCells i rs as bs
    .ok (c :: t)
  | [], [], [] => .ok []
  | _, _, _ => .error .ub

/-- The row loop, Util.h 273-284: `k` rows left, at row `i`. -/
def revealLoop (t0 t1 : Table) : Nat → Nat → Table → Res Table
  | 0, _, ret => .ok ret
  | k + 1, i, ret => do
    let fl ← (if t0.isActive.length = 0 then .ok 1 else do
      let a ← rd t0.isActive i
      let b ← rd t1.isActive i
      .ok (a ^^^ b))
    let act ← wr ret.isActive i fl
    let cols ← revealCells i ret.cols t0.cols t1.cols
    revealLoop t0 t1 k (i + 1) ⟨act, cols⟩

/-- `reveal(t0, t1, removeNulls)`, Util.h 251-290. -/
def reveal (t0 t1 : Table) (removeNulls : Bool) : Res Table := do
  throwIf (t0.getColumnInfo != t1.getColumnInfo || t0.rows != t1.rows)
  let size ← (if t0.isActive.length ≠ 0 ∧ removeNulls then
      countLoop t0.isActive t1.isActive t0.rows 0 t0.rows
    else .ok t0.rows)
  let ret ← init size t0.getColumnInfo
  let ret := { ret with isActive := List.replicate size 0 }
  let ret ← revealLoop t0 t1 t0.rows 0 ret
  if removeNulls then ret.extractActive else .ok ret

/-! ## Binary files -/

/-- The little-endian bytes of a `u64`. -/
def u64Bytes (n : Nat) : List Byte := (List.range 8).map fun i => BitVec.ofNat 8 (n / 256 ^ i)

/-- The number with the given little-endian bytes. -/
def bytesNat : List Byte → Nat
  | [] => 0
  | b :: t => b.toNat + 256 * bytesNat t

/-- Header of one column, Table.cpp 55-62. -/
def writeBinHeader (c : Column) : List Byte :=
  u64Bytes c.info.name.length ++ c.info.name ++ [BitVec.ofNat 8 c.info.type.toNat] ++ u64Bytes c.info.bits

/-- `writeBin`, Table.cpp 49-67. -/
def writeBin (t : Table) : List Byte :=
  u64Bytes t.cols.length ++ u64Bytes t.rows ++ t.cols.flatMap writeBinHeader ++
    t.cols.flatMap (fun c => c.data.rows.flatten)

/-- `in.read(buf, n)` into a zero-initialized buffer: a short file leaves the rest of the buffer
zero and the stream empty; nothing checks the state of the stream. -/
def readN (n : Nat) (s : List Byte) : List Byte × List Byte :=
  (s.take n ++ List.replicate (n - s.length) 0, s.drop n)

/-- Header of one column, Table.cpp 76-91. Reading the uninitialized `type` after a failed read is
undefined behaviour. -/
def readBinHeader (s : List Byte) : Res (ColumnInfo × List Byte) := do
  let (b, s) := readN 8 s
  let nameSize := bytesNat b
  throwIf (nameSize > 512)
  let (name, s) := readN nameSize s
  match s with
  | [] => .error .ub
  | ty :: s => do
    throwIf (ty.toNat > 3)
    let (b, s) := readN 8 s
    let bits := bytesNat b
    throwIf (bits > 2 ^ 14)
    match ColumnType.ofCode ty.toNat with
    | none => .error .ub
    | some type => do
      let i ← mkColumnInfo name type bits
      .ok (i, s)

/-- The header loop, Table.cpp 75-91. -/
def readBinHeaders : Nat → List Byte → Res (List ColumnInfo × List Byte)
  | 0, s => .ok ([], s)
  | k + 1, s => do
    let (i, s) ← readBinHeader s
    let (t, s) ← readBinHeaders k s
    .ok (i :: t, s)

/-- Cut a buffer into `n` rows of `c` bytes. -/
def cutRows : Nat → Nat → List Byte → List Row
  | 0, _, _ => []
  | n + 1, c, b => b.take c :: cutRows n c (b.drop c)

/-- The data loop, Table.cpp 93-97. -/
def readBinData (rows : Nat) : List ColumnInfo → List Byte → List Column × List Byte
  | [], s => ([], s)
  | i :: t, s =>
    let c := divCeil i.bits 8
    let (b, s) := readN (rows * c) s
    let (r, s) := readBinData rows t s
    (⟨i, ⟨i.bits, c, cutRows rows c b⟩⟩ :: r, s)

/-- `readBin` into a table with flags `old` (they are not touched), Table.cpp 69-98. Returns the
table and the unread part of the stream. -/
def readBin (old : List Byte) (s : List Byte) : Res (Table × List Byte) := do
  let (b, s) := readN 8 s
  let cols := bytesNat b
  let (b, s) := readN 8 s
  let rows := bytesNat b
  let (infos, s) ← readBinHeaders cols s
  let (cols, s) := readBinData rows infos s
  .ok (⟨old, cols⟩, s)

/-! ## CSV files -/

/-- Decimal digits of a natural number, as printed by `std::to_string` and `operator<<`. -/
def decNat (n : Nat) : List Byte :=
  if n < 10 then [BitVec.ofNat 8 (48 + n)]
  else decNat (n / 10) ++ [BitVec.ofNat 8 (48 + n % 10)]
termination_by n

/-- Decimal text of an integer. -/
def decInt (v : Int) : List Byte :=
  if v < 0 then 45 :: decNat v.natAbs else decNat v.natAbs

/-- `copyBytesMin(i64 v, row)`, Table.cpp 116-117: the first bytes of the row, zero extended. -/
def rowInt (r : Row) : Int := (BitVec.ofNat 64 (bytesNat (r.take 8))).toInt

/-- Text of one entry, Table.cpp 112-147. -/
def writeCell (c : Column) (i : Nat) : Res (List Byte) := do
  match c.info.type with
  | .int =>
    throwIf (c.info.bits > 64)
    let r ← rd c.data.rows i
    .ok (decInt (rowInt r) ++ [32])
  | .boolean =>
    let r ← rd c.data.rows i
    let x ← rd r 0
    .ok (decNat (x &&& 1).toNat ++ [32])
  | .string =>
    let b ← rd c.data.rows i
    throwIf (b.contains 59)
    let e := b.idxOf 0
    throwIf ((b.drop (e + 1)).any (· != 0))
    .ok (b.take e ++ [59])
  | .bin =>
    let r ← rd c.data.rows i
    .ok (hex r ++ [32])

/-- One row, Table.cpp 110-150. -/
def writeCells (i : Nat) : List Column → Res (List Byte)
  | [] => .ok [10]
  | c :: t => do
    let x ← writeCell c i
    let r ← writeCells i t
    .ok (x ++ r)

/-- The row loop, Table.cpp 109-151: `k` rows left, at row `i`. -/
def writeRows (cols : List Column) : Nat → Nat → Res (List Byte)
  | 0, _ => .ok []
  | k + 1, i => do
    let x ← writeCells i cols
    let r ← writeRows cols k (i + 1)
    .ok (x ++ r)

/-- Header line of a column, Table.cpp 106. -/
def writeCsvHeader (c : Column) : List Byte :=
  c.info.name ++ [32] ++ decNat c.info.type.toNat ++ [32] ++ decNat c.info.bits ++ [10]

/-- `writeCSV`, Table.cpp 101-152. -/
def writeCSV (t : Table) : Res (List Byte) := do
  let body ← writeRows t.cols t.rows 0
  .ok (decNat t.cols.length ++ [32] ++ decNat t.rows ++ [10] ++ t.cols.flatMap writeCsvHeader ++ body)

/-- An input stream: the unread characters and whether it is still `good()`. -/
structure In where
  data : List Byte
  good : Bool
deriving DecidableEq, Repr

/-- `std::getline(in, buf, d)`: the characters before the delimiter, which is dropped. At the end of
the file the rest of the characters is returned and the stream is no longer good; a stream that is
not good leaves the old buffer `buf`. -/
def getline (d : Byte) (buf : List Byte) (s : In) : List Byte × In :=
  if s.good then
    if s.data.contains d then
      (s.data.take (s.data.idxOf d), ⟨s.data.drop (s.data.idxOf d + 1), true⟩)
    else (s.data, ⟨[], false⟩)
  else (buf, s)

/-- `isspace`. -/
def isSpace (b : Byte) : Bool := b == 32 || (9 ≤ b.toNat && b.toNat ≤ 13)

/-- `isdigit`. -/
def isDigit (b : Byte) : Bool := 48 ≤ b.toNat && b.toNat ≤ 57

/-- Value of a string of digits. -/
def digitsVal (l : List Byte) : Nat := l.foldl (fun a b => 10 * a + (b.toNat - 48)) 0

/-- The optional sign in front of the digits (`std::stoll`). -/
def splitSign : List Byte → Bool × List Byte
  | [] => (false, [])
  | b :: t => if b = 45 then (true, t) else if b = 43 then (false, t) else (false, b :: t)

/-- `std::stoll`: leading spaces, an optional sign and the longest run of digits; no digit or a
value outside of `i64` throws. -/
def stoll (buf : List Byte) : Res Int :=
  let s := buf.dropWhile isSpace
  let ds := (splitSign s).2.takeWhile isDigit
  if ds = [] then .error .throw
  else
    let v : Int := if (splitSign s).1 then - (digitsVal ds : Int) else digitsVal ds
    if v < -2 ^ 63 ∨ 2 ^ 63 ≤ v then .error .throw else .ok v

/-- `u64 v = std::stoll(buffer); if (buffer != std::to_string(v)) throw`, Table.cpp 157-165, 174-182. -/
def parseU64 (buf : List Byte) : Res Nat := do
  let v ← stoll buf
  let u := (v % 2 ^ 64).toNat
  throwIf (decNat u != buf)
  .ok u

/-- `auto v = std::stoll(buffer); if (std::to_string(v) != buffer) throw`, Table.cpp 198-200. -/
def parseI64 (buf : List Byte) : Res Int := do
  let v ← stoll buf
  throwIf (decInt v != buf)
  .ok v

/-- The low `n` bytes of an `i64`, the effect of `copyBytesMin(row, v)` on a zero row of `n` bytes,
Table.cpp 202. -/
def intRow (n : Nat) (v : Int) : Row :=
  (List.range n).map fun i => if i < 8 then BitVec.ofNat 8 ((v % 2 ^ 64).toNat / 256 ^ i) else 0

/-- Reading one entry, Table.cpp 190-231. Returns the row, the buffer and the stream. -/
def readCell (c : ColumnInfo) (buf : List Byte) (s : In) : Res (Row × List Byte × In) := do
  let n := divCeil c.bits 8
  match c.type with
  | .int =>
    throwIf (c.bits > 64)
    let (buf, s) := getline 32 buf s
    let v ← parseI64 buf
    .ok (intRow n v, buf, s)
  | .boolean =>
    let (buf, s) := getline 32 buf s
    let v ← stoll buf
    throwIf (v > 1 || decInt v != buf)
    let r ← wr (List.replicate n 0) 0 (BitVec.ofInt 8 v)
    .ok (r, buf, s)
  | .string =>
    let (buf, s) := getline 59 buf s
    throwIf (buf.length > n)
    .ok (buf ++ List.replicate (n - buf.length) 0, buf, s)
  | .bin =>
    let (buf, s) := getline 32 buf s
    let r ← fromHex buf n
    .ok (r, buf, s)

/-- One row of entries, Table.cpp 188-234. -/
def readCells (buf : List Byte) (s : In) : List ColumnInfo → Res (List Row × List Byte × In)
  | [] => do
    let (buf, s) := getline 10 buf s
    throwIf (buf.length != 0)
    .ok ([], buf, s)
  | c :: t => do
    let (r, buf, s) ← readCell c buf s
    let (rs, buf, s) ← readCells buf s t
    .ok (r :: rs, buf, s)

/-- The row loop, Table.cpp 186-235. -/
def readRows (cols : List ColumnInfo) : Nat → List Byte → In → Res (List (List Row) × In)
  | 0, _, s => .ok ([], s)
  | k + 1, buf, s => do
    let (r, buf, s) ← readCells buf s cols
    let (rs, s) ← readRows cols k buf s
    .ok (r :: rs, s)

/-- Header line of a column, Table.cpp 170-184. -/
def readCsvHeader (buf : List Byte) (s : In) : Res (ColumnInfo × List Byte × In) := do
  let (name, s) := getline 32 [] s
  let (buf, s) := getline 32 buf s
  -- `type > Bin` is tested before the canonical form; both throw
  let ty ← parseU64 buf
  match ColumnType.ofCode ty with
  | none => .error .throw
  | some type => do
    let (buf, s) := getline 10 buf s
    let size ← parseU64 buf
    let i ← mkColumnInfo name type size
    .ok (i, buf, s)

/-- The header loop, Table.cpp 168-184. -/
def readCsvHeaders : Nat → List Byte → In → Res (List ColumnInfo × List Byte × In)
  | 0, buf, s => .ok ([], buf, s)
  | k + 1, buf, s => do
    let (i, buf, s) ← readCsvHeader buf s
    let (t, buf, s) ← readCsvHeaders k buf s
    .ok (i :: t, buf, s)

/-- The columns made of the entries that were read: entry `(i, j)` is written to row `i` of column
`j` (each exactly once). -/
def assemble (infos : List ColumnInfo) (rows : List (List Row)) : List Column :=
  infos.zipIdx.map fun (i, j) => ⟨i, ⟨i.bits, divCeil i.bits 8, rows.map (·.getD j [])⟩⟩

/-- `readCSV` into a table with flags `old` (they are not touched), Table.cpp 154-236. Returns the
table and the stream. -/
def readCSV (old : List Byte) (s : In) : Res (Table × In) := do
  let (buf, s) := getline 32 [] s
  let cols ← parseU64 buf
  let (buf, s) := getline 10 buf s
  let rows ← parseU64 buf
  let (infos, buf, s) ← readCsvHeaders cols buf s
  let (data, s) ← readRows infos rows buf s
  .ok (⟨old, assemble infos data⟩, s)

end Table
end SecJoin
