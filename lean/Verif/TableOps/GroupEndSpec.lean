import Verif.TableOps.GroupEnd
import Verif.Join.EndToEndSpec
/-!
# Specification of the group-by from tables to tables

Stated on the columns and flags of the plaintext table; neither of the two group-bys is used here.
-/
namespace SecJoin
namespace GroupEnd
open GroupBy (Inp)

/-- A row is active if its flag is one; without flags all rows are. -/
def on (i : Inp) (r : Nat) : Bool := i.act.isEmpty || i.act.getD r 0 == 1

/-- The key of a row. -/
def keyAt (i : Inp) (r : Nat) : Row := i.key.data.rows.getD r []

/-- The active rows with the key of row `r`. -/
def members (i : Inp) (r : Nat) : List Nat :=
  (List.range i.key.data.rows.length).filter fun a => on i a && keyAt i a == keyAt i r

/-- Row `r` is the first active row with its key. -/
def first (i : Inp) (r : Nat) : Bool := on i r && (List.range r).all fun a => !(on i a && keyAt i a == keyAt i r)

/-- The cell of a column as a number, the lowest byte first. -/
def number (c : Column) (r : Nat) : Nat :=
  let x := c.data.rows.getD r []
  ((List.range x.length).map fun i => (x.getD i 0).toNat * 256 ^ i).sum

/-- The bytes of a number, the lowest first. -/
def cellOf (bytes v : Nat) : Option Row := some ((List.range bytes).map fun i => BitVec.ofNat 8 (v / 256 ^ i))

/-- The row of a group: the key, the sum of every column modulo its width, the number of rows. -/
def rowOf (i : Inp) (r : Nat) : List (Option Row) :=
  some (keyAt i r) ::
    (i.avg.map (fun c => cellOf (divCeil c.info.bits 8) (((members i r).map (number c)).sum % 2 ^ c.info.bits)) ++
      [cellOf 8 (members i r).length])

/-- A row for every key with active rows, in the order of their first active rows. -/
def grouped (i : Inp) : List (List (Option Row)) :=
  ((List.range i.key.data.rows.length).filter (first i)).map (rowOf i)

/-- Names, types and widths of the result: key, sums, "Count"; the widths are those of whole bytes. -/
def infos (i : Inp) : List ColumnInfo :=
  ⟨i.key.info.name, i.key.info.type, divCeil i.key.info.bits 8 * 8⟩ ::
    (i.avg.map (fun c => ⟨c.info.name, c.info.type, divCeil c.info.bits 8 * 8⟩) ++ [⟨[67, 111, 117, 110, 116], .int, 64⟩])

end GroupEnd
end SecJoin
