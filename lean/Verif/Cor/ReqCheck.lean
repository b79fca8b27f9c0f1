import Verif.Cor.Request
/-!
# Comparing the requests of the two parties

Model of the debug part of `GenState::start` (`/repo/secure-join/CorGenerator/CorGenerator.cpp` 167-220), in which both parties exchange the list of
their requests, as two parties whose steps are interleaved in any order. A message can always be sent. What is printed is not modelled.
-/
namespace SecJoin
namespace Cor

/-- `ReqInfo`, CorGenerator.h 65-82. -/
structure Req where
  kind : Kind
  role : Bool
  size : Nat
  deriving DecidableEq

/-- `mReqs` after a sequence of requests in debug mode, CorGenerator.cpp 57-60, with the arguments of CorGenerator.h 171-211. -/
def record (g : Gen) (rs : List (Kind × Bool × Nat)) : List Req := rs.map fun (k, s, n) => ⟨k, roleOf g k s, roundUp n⟩

/-- `theirReq[i].mRole ^= 1`, 174-175. -/
def flipRoles (l : List Req) : List Req := l.map fun r => { r with role := !r.role }

/-- Where a party is: before the test `i < mReqs.size()` of the loop (170), waiting for the other party's list (173), past the comparison (177), or thrown
(216). -/
inductive Where where
  | head (i : Nat)
  | wait
  | passed
  | threw
  deriving DecidableEq, Repr

/-- A party: its list, `theirReq`, where it is, how many lists it has sent and received. All lists that a party sends are equal. -/
structure Dbg where
  mine : List Req
  theirs : List Req
  pos : Where
  sent : Nat
  got : Nat
  deriving DecidableEq

/-- One step. The inner loop, 174-175, runs over the index `i` of the outer one and leaves the number of the other party's requests in it, which the
outer loop then increases. -/
def Dbg.step (other p : Dbg) : Option Dbg :=
  match p.pos with
  | .head i =>
    if i < p.mine.length then some { p with pos := .wait, sent := p.sent + 1 }
    else some { p with pos := if p.mine = p.theirs then .passed else .threw }
  | .wait => if p.got < other.sent then some { p with theirs := flipRoles other.mine, got := p.got + 1, pos := .head (other.mine.length + 1) } else none
  | .passed => none
  | .threw => none

/-- One step of the first or of the second party. -/
def dbgStep (second : Bool) (s : Dbg × Dbg) : Option (Dbg × Dbg) :=
  if second then (Dbg.step s.1 s.2).map fun p => (s.1, p) else (Dbg.step s.2 s.1).map fun p => (p, s.2)

/-- A schedule; entries that cannot make a step are skipped. -/
def dbgRun : List Bool → Dbg × Dbg → Dbg × Dbg
  | [], s => s
  | w :: t, s => dbgRun t ((dbgStep w s).getD s)

def Dbg.start (mine : List Req) : Dbg := ⟨mine, [], .head 0, 0, 0⟩

end Cor
end SecJoin
