import Verif.Basic
/-!
# Starting batches from several threads

Model of `Batch::start` in `/repo/secure-join/CorGenerator/Batch.cpp`, `GenState::startBatch` and `GenState::abort` in
`/repo/secure-join/CorGenerator/CorGenerator.h`, and of the part of `GenState::start` in `CorGenerator.cpp` that lets go of batches.
Every atomic operation is one step; threads are interleaved in any order.
-/
namespace SecJoin
namespace Cor

/-- Where a thread is. -/
inductive Pc where
  /-- before `mStarted.exchange(true)`, Batch.cpp 37 -/
  | enter
  /-- before `idx = mBatchStartIdx`, CorGenerator.h 121 and 138 -/
  | load
  /-- before the loop test and the compare-and-swap, CorGenerator.h 125-127 and 139-142 -/
  | check (idx : Nat)
  /-- after a successful compare-and-swap, before `mBatches[idx]->mStart.set()`, CorGenerator.h 130 and 145-146 -/
  | set (idx : Nat)
  /-- `startBatch` or `abort` has returned -/
  | done
  /-- `Batch::start` has returned because of an earlier call for the same batch -/
  | skip
  deriving DecidableEq

/-- A thread that calls `start` of batch `lim - 1`, or `abort` with `lim` batches. -/
structure Thread where
  abort : Bool
  lim : Nat
  pc : Pc
  deriving DecidableEq

/-- `Batch::start` of batch `t`. -/
def starter (t : Nat) : Thread := ⟨false, t + 1, .enter⟩

/-- `GenState::abort` with `n` batches. -/
def aborter (n : Nat) : Thread := ⟨true, n, .load⟩

/-- The shared state. `batches` is the number of batches, `next` is `mBatchStartIdx`, `started` the flags `mStarted`, `log` the batches
whose `mStart` was set, in order, with their `mAbort`; `released` counts the batches that `GenState::start` has let go of (it does so
in order). `bad` records a use of a batch that does not exist or was let go of. `claims` is not in the code: it records the successful
compare-and-swaps. -/
structure Shared where
  batches : Nat
  next : Nat := 0
  started : Nat → Bool := fun _ => false
  log : List (Nat × Bool) := []
  released : Nat := 0
  bad : Bool := false
  claims : List (Nat × Bool) := []

/-- One step of a thread; Batch.cpp 35-42, CorGenerator.h 119-150. The loop test is local and is taken together with the
compare-and-swap, and `mAbort = true` with `mStart.set()`, since `mAbort` is only read after `mStart`. -/
def stepThread (s : Shared) (t : Thread) : Shared × Thread :=
  match t.pc with
  | .enter => if s.started (t.lim - 1) then (s, { t with pc := .skip })
      else ({ s with started := fun b => if b = t.lim - 1 then true else s.started b }, { t with pc := .load })
  | .load => (s, { t with pc := .check s.next })
  | .check idx =>
    if idx < t.lim then
      if s.next = idx then ({ s with next := idx + 1, claims := s.claims ++ [(idx, t.abort)] }, { t with pc := .set idx })
      else (s, { t with pc := .check s.next })
    else (s, { t with pc := .done })
  | .set idx => ({ s with log := s.log ++ [(idx, t.abort)], bad := s.bad || decide (s.batches ≤ idx) || decide (idx < s.released) },
      { t with pc := .check (idx + 1) })
  | .done => (s, t)
  | .skip => (s, t)

/-- Who moves: a thread, or the generator, which waits for `mStart` of the next batch and later lets go of it (CorGenerator.cpp 296
and 330). -/
inductive Act where
  | thread (i : Nat)
  | release

/-- All threads and the shared state. -/
structure Sys where
  sh : Shared
  threads : List Thread

/-- One step. -/
def step (s : Sys) : Act → Sys
  | .thread i =>
    match s.threads[i]? with
    | none => s
    | some t => ⟨(stepThread s.sh t).1, s.threads.set i (stepThread s.sh t).2⟩
  | .release => if s.sh.released ∈ s.sh.log.map (·.1) then { s with sh := { s.sh with released := s.sh.released + 1 } } else s

/-- An execution: any sequence of steps. -/
def run (s : Sys) (as : List Act) : Sys := as.foldl step s

/-- `n` batches, calls of `start` for the batches `ts` and `a` calls of `abort`, nothing done yet. -/
def initSys (n : Nat) (ts : List Nat) (a : Nat) : Sys := ⟨{ batches := n }, ts.map starter ++ List.replicate a (aborter n)⟩

end Cor
end SecJoin
