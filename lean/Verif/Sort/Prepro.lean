import Verif.Basic
/-!
# Preparing the rounds of a sort ahead of time

Model of how `RadixSort::genPerm` and `RadixSort::genPrePerm` (`/repo/secure-join/Sort/RadixSort.cpp` 1053-1229 and 1440-1470) wait for
each other, as two parties whose main protocol and background tasks are interleaved in any order. What the steps compute is in
`Sort/Radix.lean`.

Simplified: every interactive part is one message in each direction, a message can always be sent, and an exception of a background
task is seen at once.
-/
namespace SecJoin
namespace Prepro

/-- What happens at a party. -/
inductive Ev where
  /-- the task of round `i` passes `co_await *mStartPrepro`, 1448 -/
  | began (i : Nat)
  /-- `mPrePermReady->set()` of round `i`, 1466 -/
  | made (i : Nat)
  /-- the permutation of round `i` is derandomized and applied, 1186-1193 -/
  | used (i : Nat)
  /-- `genBitPerm` of round `i`, 1139 and 1197 -/
  | ranked (i : Nat)
  /-- the permutation of round `i` is composed with the next one, 1216 -/
  | composed (i : Nat)
  /-- `mockSort`, 1123 -/
  | mocked
  deriving DecidableEq, Repr

/-- What the main protocol does, in order. -/
inductive Ins where
  /-- `RadixSort::init`, 1003-1042: new rounds with new events -/
  | init (rounds : Nat)
  /-- the loop of `genPrePerm`, 1074-1087 -/
  | spawn
  /-- the own message of an interactive part -/
  | send
  /-- the other party's message, which ends an interactive part -/
  | recv (e : Ev)
  /-- `lead = mPreProLead`, 1142 -/
  | setLead
  /-- 1145-1150 and 1201-1206: `mRounds[lead++].mStartPrepro->set()` if there is such a round -/
  | release
  /-- `co_await *mRounds[i].mPrePermReady`, 1181 -/
  | wait (i : Nat)
  /-- the task of `genPrePerm` is awaited, 1089-1092 and 1226 -/
  | join
  /-- `mRounds.clear()`, 1227; undefined while a task of a round has not ended, for it uses the round -/
  | clear
  /-- an exception or undefined behaviour -/
  | stop (e : Err)
  deriving DecidableEq

/-- The calls of a user of the sort. `OmJoin::join` (OmJoin.cpp 451, 514-523) and `GroupBy::groupBy` (GroupBy.cpp 298, 365-371) make the
calls `init`, `background`, `sort`, `awaitPre`. -/
inductive Call where
  | init (rounds : Nat)
  /-- `co_await genPrePerm(…)` -/
  | pre
  /-- `genPrePerm(…) | macoro::make_eager()` -/
  | background
  /-- `co_await genPerm(…)`, with `mInsecureMock` or not -/
  | sort (mock : Bool)
  /-- `co_await` of the task of `background` -/
  | awaitPre
  deriving DecidableEq

/-- The loop of `genPerm`, 1171-1220, from round `i` on, `n` turns. -/
def iters : Nat → Nat → List Ins
  | _, 0 => []
  | i, n + 1 => [.wait (i - 1), .send, .recv (.used (i - 1)), .send, .recv (.ranked i), .release, .send, .recv (.composed (i - 1))] ++
      iters (i + 1) n

/-- `genPerm` without mock, 1127-1229; `started` is `mPrePermStarted`. -/
def sortCode (started : Bool) (rounds : Nat) : List Ins :=
  (if started then [] else [.spawn]) ++ [.send, .recv (.ranked 0), .setLead, .release] ++ iters 1 (rounds - 1) ++
    if started then [] else [.join, .clear]

/-- What a list of calls does. `started` is `mPrePermStarted`, which is set in `genPrePerm` (1057-1059) and never reset; `rounds` is
`mRounds.size()`. Without rounds `mRounds[0]` is out of bounds (1139). -/
def compile : Bool → Nat → List Call → List Ins
  | _, _, [] => []
  | started, _, .init n :: t => .init n :: compile started n t
  | started, rounds, .pre :: t => if started then [.stop .throw] else .spawn :: .join :: compile true rounds t
  | started, rounds, .background :: t => if started then [.stop .throw] else .spawn :: compile true rounds t
  | started, rounds, .awaitPre :: t => .join :: compile started rounds t
  | started, rounds, .sort true :: t => .send :: .recv .mocked :: compile started rounds t
  | started, rounds, .sort false :: t =>
    if rounds = 0 then [.stop .ub] else sortCode started rounds ++ compile true (if started then rounds else 0) t

/-- The task of a round, `Round::preGenPerm`: not yet there, before line 1448, inside `generate` (1461), ended. -/
inductive Task where
  | idle
  | waiting
  | running
  | done
  deriving DecidableEq, Repr

/-- A party: what is left of its main protocol, `mPreProLead`, the variable `lead`, how often `init` was called, the events `mStartPrepro` and the
tasks of the rounds, the numbers of messages of the main protocol, the messages of the tasks (for a call of `init` and a round), what happened. -/
structure Party where
  code : List Ins
  lead : Nat
  next : Nat
  gen : Nat
  rel : List Bool
  tasks : List Task
  sent : Nat
  got : Nat
  out : List (Nat × Nat)
  log : List Ev
  failed : Option Err

/-- One step of the main protocol, if it is not waiting. -/
def Party.main (other p : Party) : Option Party :=
  match p.code with
  | [] => none
  | .init n :: c => some { p with code := c, gen := p.gen + 1, rel := List.replicate n false, tasks := List.replicate n .idle }
  | .spawn :: c => some { p with code := c, rel := (List.range p.rel.length).map fun i => decide (i < p.lead), tasks := p.tasks.map fun _ => .waiting }
  | .send :: c => some { p with code := c, sent := p.sent + 1 }
  | .recv e :: c => if p.got < other.sent then some { p with code := c, got := p.got + 1, log := p.log ++ [e] } else none
  | .setLead :: c => some { p with code := c, next := p.lead }
  | .release :: c =>
    if p.next < p.rel.length then some { p with code := c, rel := p.rel.set p.next true, next := p.next + 1 } else some { p with code := c }
  | .wait i :: c => if p.tasks[i]? = some .done then some { p with code := c } else none
  | .join :: c => if p.tasks.all (· == .done) then some { p with code := c } else none
  | .clear :: c =>
    if p.tasks.all (fun t => t == .done || t == .idle) then some { p with code := c, rel := [], tasks := [] }
    else some { p with code := [], failed := some .ub }
  | .stop e :: _ => some { p with code := [], failed := some e }

/-- One step of the task of round `i`. The last round makes no permutation (1029-1030, 1457). -/
def Party.task (other p : Party) (i : Nat) : Option Party :=
  match p.tasks[i]? with
  | some .waiting =>
    if p.rel[i]? = some true then
      if i + 1 = p.tasks.length then some { p with tasks := p.tasks.set i .done, log := p.log ++ [.began i, .made i] }
      else some { p with tasks := p.tasks.set i .running, out := (p.gen, i) :: p.out, log := p.log ++ [.began i] }
    else none
  | some .running => if (p.gen, i) ∈ other.out then some { p with tasks := p.tasks.set i .done, log := p.log ++ [.made i] } else none
  | _ => none

/-- Both parties. -/
structure Sys where
  a : Party
  b : Party

/-- Who makes a step: the main protocol or the task of a round, of the first or of the second party. -/
inductive Who where
  | main (second : Bool)
  | task (second : Bool) (i : Nat)
  deriving DecidableEq

def step : Who → Sys → Option Sys
  | .main false, s => (Party.main s.b s.a).map fun p => { s with a := p }
  | .main true, s => (Party.main s.a s.b).map fun p => { s with b := p }
  | .task false i, s => (Party.task s.b s.a i).map fun p => { s with a := p }
  | .task true i, s => (Party.task s.a s.b i).map fun p => { s with b := p }

/-- A schedule; entries that cannot make a step are skipped. -/
def run : List Who → Sys → Sys
  | [], s => s
  | w :: t, s => run t ((step w s).getD s)

def Party.start (calls : List Call) (lead : Nat) : Party := ⟨compile false 0 calls, lead, 0, 0, [], [], 0, 0, [], [], none⟩

/-- Two new objects on which both parties make the same calls. -/
def start (calls : List Call) (leadA leadB : Nat) : Sys := ⟨.start calls leadA, .start calls leadB⟩

end Prepro
end SecJoin
