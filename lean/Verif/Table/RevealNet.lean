import Verif.Table.Model
/-!
# Revealing a table over the network

A channel is the list of messages that were sent and not yet received, oldest first. Messages without bytes are not modelled.
-/
namespace SecJoin
namespace Table

/-- `Socket::recv` into a buffer of `size` bytes (coproto, outside of the repository): waits for a message and throws if it has
another size. Nothing that is ever sent later is modelled here, so waiting on an empty channel is `diverge`. -/
def recvMsg (size : Nat) : List (List Byte) → Res (List Byte × List (List Byte))
  | [] => .error .diverge
  | m :: ms => do
    throwIf (m.length != size)
    .ok (m, ms)

/-- The bytes of a matrix of `k` rows of `c` bytes. -/
def splitRows (c : Nat) : Nat → List Byte → List Row
  | 0, _ => []
  | k + 1, m => m.take c :: splitRows c k (m.drop c)

/-- What `revealRemote` sends, Table.cpp 340-353: copies of the columns, then of the flags if there are any. -/
def revealRemote (t : Table) : List (List Byte) :=
  t.cols.map (·.data.rows.flatten) ++ if t.isActive.length > 0 then [t.isActive] else []

/-- The receiving loop, Table.cpp 326-329. -/
def recvCols : List Column → List (List Byte) → Res (List Column × List (List Byte))
  | [], ch => .ok ([], ch)
  | c :: cs, ch => do
    let (m, ch) ← recvMsg (c.data.rows.length * c.data.cols) ch
    let (cs, ch) ← recvCols cs ch
    .ok ({ c with data := { c.data with rows := splitRows c.data.cols c.data.rows.length m } } :: cs, ch)

/-- `revealLocal`, Table.cpp 320-337: the shape of the other share is taken from the own one. -/
def revealLocal (t : Table) (ch : List (List Byte)) : Res (Table × List (List Byte)) := do
  let r ← init t.rows t.getColumnInfo
  let (cols, ch) ← recvCols r.cols ch
  let (fl, ch) ← (if t.isActive.length > 0 then recvMsg t.isActive.length ch else .ok ([], ch))
  let out ← reveal t ⟨fl, cols⟩ false
  .ok (out, ch)

/-- Tables revealed one after the other over the same channel: everything the sender sends for `ts`. -/
def revealRemotes (ts : List Table) : List (List Byte) := ts.flatMap revealRemote

/-- The receiver's side of several reveals. -/
def revealLocals : List Table → List (List Byte) → Res (List Table × List (List Byte))
  | [], ch => .ok ([], ch)
  | t :: ts, ch => do
    let (o, ch) ← revealLocal t ch
    let (os, ch) ← revealLocals ts ch
    .ok (o :: os, ch)

end Table
end SecJoin
