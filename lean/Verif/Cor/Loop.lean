import Verif.Basic
/-!
# The generator's main loop

Model of the loop in `GenState::start`, `/repo/secure-join/CorGenerator/CorGenerator.cpp` 288-332.
-/
namespace SecJoin
namespace Cor

/-- What the loop does, in order. -/
inductive Ev where
  /-- the task of a batch is created and runs from now on (CorGenerator.cpp 305-318) -/
  | launch (i : Nat)
  /-- the task of a batch is awaited (327) -/
  | await (i : Nat)
  /-- the pointer to a batch is dropped (330) -/
  | drop (j : Nat)
  deriving DecidableEq

/-- `threadState` as the batch whose task each slot holds; the tasks not awaited yet; the trace. -/
structure LSt where
  slots : List (Option Nat)
  live : List Nat := []
  trace : List Ev := []

/-- First half of the body, 294-320. That the batch was started is not modelled here. Assigning to a slot whose task has not been awaited
destroys a running task. -/
def launch (nb nc : Nat) (aborted : Nat → Bool) (i : Nat) (s : LSt) : Res LSt :=
  if i < nb ∧ aborted i = false then do
    match ← rd s.slots (i % nc) with
    | some t => if t ∈ s.live then .error .ub else .ok ⟨s.slots.set (i % nc) (some i), i :: s.live, s.trace ++ [.launch i]⟩
    | none => .ok ⟨s.slots.set (i % nc) (some i), i :: s.live, s.trace ++ [.launch i]⟩
  else .ok s

/-- Second half of the body, 323-331. Awaiting does not empty the slot. -/
def join (nb nc : Nat) (j : Nat) (s : LSt) : Res LSt :=
  if j < nb then do
    match ← rd s.slots (j % nc) with
    | some t => .ok ⟨s.slots, s.live.erase t, s.trace ++ [.await t, .drop j]⟩
    | none => .ok ⟨s.slots, s.live, s.trace ++ [.drop j]⟩
  else .ok s

/-- The loop from line 292, with 64-bit `j`. Since `j` runs through all values, 2^64 rounds are always enough; `fuel` is what is left of
them. -/
def loop (nb nc : Nat) (aborted : Nat → Bool) : Nat → Nat → Nat → LSt → Res LSt
  | 0, _, _, _ => .error .diverge
  | fuel + 1, i, j, s =>
    if j = nb then .ok s
    else do
      let s ← launch nb nc aborted i s
      let s ← join nb nc j s
      loop nb nc aborted fuel ((i + 1) % 2 ^ 64) ((j + 1) % 2 ^ 64) s

/-- The whole loop; `j` starts at `-mNumConcurrent + 1`. -/
def genLoop (nb nc : Nat) (aborted : Nat → Bool) : Res LSt :=
  loop nb nc aborted (2 ^ 64 + 1) 0 ((2 ^ 64 - nc + 1) % 2 ^ 64) ⟨List.replicate nc none, [], []⟩

end Cor
end SecJoin
