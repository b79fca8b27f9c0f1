import Verif.GMW.Model
/-!
# The transcript of a circuit evaluation

What the two parties of `Gmw::run` (`/repo/secure-join/GMW/Gmw.cpp`) send to each other. The functions are those of `GMW/Model.lean` with
the messages kept; `r` is the role of the party named first, so that both parties' views are instances of one definition.
-/
namespace SecJoin
namespace Gmw

/-- What one level does: the blocks sent by the first and by the second party, the rest of the correlations and the wires. -/
structure Step where
  sent : List Block
  rcvd : List Block
  pool0 : Pool
  pool1 : Pool
  wires0 : List Word
  wires1 : List Word
deriving DecidableEq

/-- One iteration of the loop over the levels, Gmw.cpp 257-493, by the party of role `r` and the other one; as `runLevel`, with the messages.
The splitting into messages (Gmw.cpp 393-399) depends on the sizes only (`chunks`), it is left out. -/
def viewLevel (r W : Nat) (gs : List Gate) (p0 p1 : Pool) (w0 w1 : List Word) : Res Step := do
  let need := W * ands gs
  let (t0, p0) ← fetch r (need + p0.segs.length) need p0
  let (t1, p1) ← fetch (1 - r) (need + p1.segs.length) need p1
  let (w0, m0) ← phase1 r W gs t0.a t0.c w0
  let (w1, m1) ← phase1 (1 - r) W gs t1.a t1.c w1
  let w0 ← phase2 r W gs t0.b t0.c t0.d m1 w0
  let w1 ← phase2 (1 - r) W gs t1.b t1.c t1.d m0 w1
  .ok ⟨m0, m1, p0, p1, w0, w1⟩

/-- The loop over the levels, Gmw.cpp 257-598: the blocks sent in each level by the two parties, and the final wires of both. -/
def viewLevels (r W : Nat) : List (List Gate) → Pool → Pool → List Word → List Word →
    Res (List (List Block × List Block) × List Word × List Word)
  | [], _, _, w0, w1 => .ok ([], w0, w1)
  | gs :: ls, p0, p1, w0, w1 => do
    let s ← viewLevel r W gs p0 p1 w0 w1
    let (ms, v0, v1) ← viewLevels r W ls s.pool0 s.pool1 s.wires0 s.wires1
    .ok ((s.sent, s.rcvd) :: ms, v0, v1)

/-- `Gmw::run` of both parties, Gmw.cpp 207-600, as seen by the party of role `r`: `run` with the transcript. The segments and wires of
that party come first. -/
def view (r n : Nat) (levels : List (List Gate)) (segs0 segs1 : List (List Block × List Block))
    (w0 w1 : List Word) : Res (List (List Block × List Block) × List Word × List Word) := do
  throwIf (levels.flatten.length == 0)
  viewLevels r (width n) levels ⟨[], [], segs0⟩ ⟨[], [], segs1⟩ w0 w1

end Gmw
end SecJoin
