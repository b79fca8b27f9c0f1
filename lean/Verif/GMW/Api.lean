import Verif.GMW.Wires
/-!
# A circuit evaluation as its users see it: GMW/Gmw.{h,cpp}

`init`, calls that set or map inputs and outputs, `run` of both parties, `getOutput`.
-/
namespace SecJoin
namespace Gmw
namespace Wires

/-- The words of all wires, read through the pointers. -/
def loadAll (s : St) : Res (List Word) := mapRes (getWire s) (List.range s.wires)

/-- Writing words through the pointers of the wires `k`, `k + 1`, ... -/
def storeAll : List Word → Nat → St → Res St
  | [], _, s => .ok s
  | w :: ws, k, s => do
    let s ← setWire s k w
    storeAll ws (k + 1) s

/-- `run` of both parties with their memory, Gmw.cpp 207-600: first `finalizeMapping` (line 237), then the levels. Simplified: the levels
read and write wires through pointers; here all words are read, the levels are run on the list (`Gmw.run`) and the words are written.
`C71_wires` shows that reads and writes through the pointers are those of a list. -/
def runBoth (junk0 junk1 : Nat → Nat → Block) (n : Nat) (levels : List (List Gate)) (segs0 segs1 : List (List Block × List Block)) (s0 s1 : St) :
    Res (St × St) := do
  let s0 ← finalize junk0 s0
  let s1 ← finalize junk1 s1
  let w0 ← loadAll s0
  let w1 ← loadAll s1
  let (_, _, v0, v1) ← run n levels segs0 segs1 w0 w1
  let s0 ← storeAll v0 0 s0
  let s1 ← storeAll v1 0 s1
  .ok (s0, s1)

end Wires
end Gmw
end SecJoin
