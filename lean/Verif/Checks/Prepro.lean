import Verif.Sort.Prepro
import Verif.Checks.Util
/-! Instances of C75, evaluated. -/
namespace SecJoin.Checks.Prepro
open SecJoin.Prepro

/-- Schedules: in turn, the first party first, the tasks late, and chosen at random. -/
def sched (k ll n : Nat) : List Who :=
  let ts := (List.range ll).flatMap fun i => [Who.task false i, .task true (ll - 1 - i)]
  match k with
  | 0 => (List.replicate n ([.main false, .main true] ++ ts)).flatten
  | 1 => (List.replicate n (List.replicate 9 (.main false) ++ ts ++ [.main true])).flatten
  | 5 => (List.replicate n ([.main true, .main true, .main false] ++ ((List.range ll).map fun i => Who.task true i) ++ [.task false 0])).flatten
  | 2 => (List.replicate n ([.main true, .main false] ++ ts.take 1 ++ [.main true, .main true] ++ ts.reverse)).flatten
  | _ => (List.range (n * (2 * ll + 2))).map fun i => let r := rnd (1000 * k + i) (2 * ll + 6)
    if r < 3 then .main false else if r < 6 then .main true else if r % 2 == 0 then .task false ((r - 6) / 2) else .task true ((r - 6) / 2)

def fuel (ll : Nat) : Nat := 40 * ll + 40
def ended (p : Party) : Bool := p.code == [] && p.failed.isNone && p.tasks.all (· == .done)
def ranked (l : List Ev) : Nat := (l.filter fun | .ranked _ => true | _ => false).length
def lead (l : Nat) (log : List Ev) : Bool := (List.range log.length).all fun k => match log[k]? with
  | some (.began i) => decide (i < l + ranked (log.take k))
  | some (.used i) => (log.take k).contains (.made i)
  | _ => true
def main (log : List Ev) : List Ev := log.filter fun | .began _ => false | .made _ => false | _ => true
def want (ll : Nat) : List Ev := .ranked 0 :: (List.range (ll - 1)).flatMap fun i => [.used i, .ranked (i + 1), .composed i]
def usual (ll : Nat) : List (List Call) := [[.init ll, .sort false], [.init ll, .background, .sort false, .awaitPre]]
def both (s : Sys) (f : Party → Bool) : Bool := f s.a && f s.b
def leads : List (Nat × Nat) := [(4, 4), (0, 3), (2, 1), (1, 0), (9, 2)]

#eval say "C75_ends" <| [1, 2, 3, 6].all fun ll => (usual ll).all fun c => leads.all fun (x, y) => [0, 1, 2, 3, 4].all fun k =>
  both (run (sched k ll (fuel ll)) (start c x y)) ended
#eval say "C75_order" <| [1, 2, 3, 6].all fun ll => (usual ll).all fun c => leads.all fun (x, y) => [0, 1, 2].all fun k =>
  both (run (sched k ll (fuel ll)) (start c x y)) fun p => main p.log == want ll
#eval say "C75_lead" <| [2, 6].all fun ll => (usual ll).all fun c => leads.all fun (x, y) => [0, 1, 2, 3].all fun k => [1, 3, fuel ll].all fun n =>
  let s := run (sched k ll n) (start c x y)
  lead x s.a.log && lead y s.b.log
#eval say "C75_all" <| [1, 2, 3, 6].all fun ll => (usual ll).all fun c => leads.all fun (x, y) => [0, 1, 2].all fun k =>
  both (run (sched k ll (fuel ll)) (start c x y)) fun p => !ended p || (List.range ll).all fun i => p.log.contains (.began i) && p.log.contains (.made i)
/-- The states of a schedule. -/
def states : List Who → Sys → List Sys
  | [], s => [s]
  | w :: t, s => s :: states t ((step w s).getD s)
#eval say "C75_ahead" <| [2, 6].all fun ll => (usual ll).all fun c => leads.all fun (x, y) => [0, 1, 2, 3, 5].all fun k =>
  (states (sched k ll (if k == 0 then 40 else 12)) (start c x y)).all fun s => (List.range ll).all fun i =>
    (ranked s.a.log == 0 || decide (x + ranked s.a.log ≤ i + 1) || s.a.log.contains (.began i) || (step (.task false i) s).isSome) &&
    (ranked s.b.log == 0 || decide (y + ranked s.b.log ≤ i + 1) || s.b.log.contains (.began i) || (step (.task true i) s).isSome)
#eval say "C75_together" <| [2, 6].all fun ll => (usual ll).all fun c => leads.all fun (x, y) => [0, 1, 2, 3, 5].all fun k =>
  (states (sched k ll (if k == 0 then 40 else 12) ++ List.replicate 9 (.main true)) (start c x y)).all fun s =>
    decide ((main s.a.log).length ≤ (main s.b.log).length + 1) && decide ((main s.b.log).length ≤ (main s.a.log).length + 1) &&
    (List.range (ll - 1)).all fun i => (!s.a.log.contains (.made i) || s.b.log.contains (.began i)) &&
      (!s.b.log.contains (.made i) || s.a.log.contains (.began i))
#eval say "C75_early" <| [1, 2, 4].all fun ll => [0, 1, 2].all fun k => [(ll, ll), (ll + 1, ll)].all fun (x, y) =>
  [[Call.init ll, .pre, .sort false], [.init ll, .background, .sort true, .awaitPre]].all fun c => both (run (sched k ll (fuel ll)) (start c x y)) ended
#eval say "C75_false" <| [2, 5].all fun ll => [0, 1, 2].all fun k => [(ll - 1, ll), (ll, ll - 1), (1, 1)].all fun (x, y) =>
  [[Call.init ll, .pre, .sort false], [.init ll, .background, .sort true, .awaitPre]].all fun c =>
    let s := run (sched k ll (fuel ll)) (start c x y)
    !(ended s.a && ended s.b)
#eval say "C75_again_false" <| [1, 3].all fun ll => [2, 3].all fun m => [0, 1].all fun k =>
  let s := run (sched k m (fuel (ll + m))) (start [.init ll, .sort false, .init m, .sort false] 4 4)
  !(ended s.a) && s.a.failed.isNone
#eval say "C75_twice_false" <| [1, 3].all fun ll => [2, 3].all fun m => [0, 1].all fun k =>
  let s := run (sched k (ll + m) (fuel (ll + m))) (start [.init ll, .background, .sort false, .awaitPre, .init m, .background] 4 4)
  both s fun p => p.code == [] && p.failed.isSome
end SecJoin.Checks.Prepro
