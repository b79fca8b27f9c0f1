import Verif.Table.Model
/-!
# Model of the plaintext sort: Sort/RadixSort.cpp 1382-1426 and Table.cpp 384-391
-/
namespace SecJoin

/-- The loop of `lessThan`, RadixSort.cpp 1396-1406: from the last byte down to the first; `k` bytes
are left, the next index is `k - 1`. -/
def ltLoop (l r : Row) : Nat → Bool
  | 0 => false
  | k + 1 =>
    if (l.getD k 0).toNat < (r.getD k 0).toNat then true
    else if (l.getD k 0).toNat > (r.getD k 0).toNat then false
    else ltLoop l r k

/-- `lessThan(span<const u8>, span<const u8>)`, RadixSort.cpp 1394-1406. Its `assert` on equal lengths
holds for the rows of one matrix or of two matrices with equal byte widths. -/
def lessThan (l r : Row) : Bool := ltLoop l r l.length

/-- `sort(const BinMatrix& x)`, RadixSort.cpp 1408-1426: `std::stable_sort` of the indices
`0, .., n-1` under `lessThan(x[a], x[b])`. The standard library function is modelled by the stable
merge sort of Lean; `a` may stay before `b` unless `x[b] < x[a]`. -/
def plainSort (x : List Row) : List Nat :=
  (List.range x.length).mergeSort (fun a b => !lessThan (x.getD b []) (x.getD a []))

namespace Table

/-- The loop of `Table::sort`, Table.cpp 386-390: `k` columns are left, the next is column `k - 1`. -/
def sortLoop : Nat → Table → Res Table
  | 0, t => .ok t
  | k + 1, t => do
    let c ← rd t.cols k
    let t ← t.permute ⟨plainSort c.data.rows⟩ .regular
    sortLoop k t

/-- `Table::sort()`, Table.cpp 384-391. -/
def sort (t : Table) : Res Table := sortLoop t.cols.length t

end Table
end SecJoin
