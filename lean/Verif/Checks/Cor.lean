import Verif.Cor.Request
import Verif.Cor.Start
import Verif.Cor.Base
import Verif.Cor.Loop
import Verif.Prf.KeyState
import Verif.Checks.Util
/-!
# Tests of C39 to C43, C63 to C65
-/
namespace SecJoin.Checks.Cor
open SecJoin.Cor SecJoin.AltMod

/-! ## Requests -/

def kinds : List Kind := [.ot, .ole, .f4, .trit]
def newGen (party : Bool) (nc B : Nat) : Gen := (Gen.new party nc B).toOption.getD ⟨B, party, fun _ _ => none, []⟩
def reqs (seed : Nat) : List (Kind × Bool × Nat) := (List.range (5 + seed)).map fun i =>
  (kinds.getD (rnd (seed * 100 + i) 4) .ot, rnd (seed * 100 + i + 50) 2 == 1, [rnd (seed * 100 + i + 70) 3000, 0, 1024, 768, 1].getD (rnd (seed * 100 + i + 80) 7) (rnd (seed + i) 300))
def after (g : Gen) (rs : List (Kind × Bool × Nat)) (f : List (List Piece) → Gen → Bool) : Bool := okAnd (requests g rs) fun x => f x.1 x.2
def disjoint : List Piece → Bool
  | [] => true
  | p :: ps => ps.all (fun q => p.batch != q.batch || p.off + p.size ≤ q.off || q.off + q.size ≤ p.off) && disjoint ps
def forall2 {α β : Type} (f : α → β → Bool) : List α → List β → Bool
  | [], [] => true
  | a :: as, b :: bs => f a b && forall2 f as bs
  | _, _ => false
def carved (B : Nat) (rs : List (Kind × Bool × Nat)) (pss : List (List Piece)) : Bool :=
  forall2 (fun q ps => (ps.map Piece.size).sum == (q.2.2 + 127) / 128 * 128) rs pss &&
  pss.flatten.all (fun p => 0 < p.size && p.size % 128 == 0 && p.off % 128 == 0 && p.off + p.size ≤ B) && disjoint pss.flatten
def cases : List (Bool × Nat × List (Kind × Bool × Nat)) := (List.range 8).map fun i => (i % 2 == 1, [1024, 1152, 2048, 1280].getD (i % 4) 0, reqs i)
def more : List (Bool × Nat × List (Kind × Bool × Nat)) := cases ++ [(true, 1100, reqs 3)]
def full : List (Bool × Nat × List (Kind × Bool × Nat)) := cases ++ [(true, 1024, [(.ot, false, 512), (.ot, true, 640)])]
#eval say "C39_partial" <| cases.all fun (party, B, rs) => after (newGen party 1 B) rs fun pss g => carved B rs pss &&
  (List.range g.batches.length).all (fun b => ((pss.flatten.filter fun p => p.batch == b).map Piece.size).sum == (g.batches.getD b ⟨.ot, false, 0⟩).size) &&
  forall2 (fun q ps => ps.all fun p => match g.batches[p.batch]? with
    | none => false
    | some b => b.kind == q.1 && b.role == if q.1 = .ole then party else q.2.1) rs pss
#eval say "C39_new" <| [0, 1023, 1024, 1025, 2 ^ 26, 2 ^ 26 + 1].all fun B => [0, 1, 2, 1024, 1025].all fun nc =>
  (Gen.new true nc B).isOk == (1024 ≤ B && B ≤ 2 ^ 26 && 1 ≤ nc && nc ≤ 1024)
#eval say "C39_false" <| [1025, 1100, 1151].all fun B => [true, false].all fun s => after (newGen true 1 B) [(.ot, s, B)] fun pss g =>
  match pss with
  | [[p]] => B < p.off + p.size && g.cur .ot s == some p.batch && !carved B [(.ot, s, B)] pss
  | _ => false
#eval say "C40_pieces" <| more.all fun (_, B, rs) => match requests (newGen false 1 B) rs, requests (newGen true 2 B) (rs.map fun q => (q.1, !q.2.1, q.2.2)) with
  | .ok (p, g), .ok (p', g') => p == p' && forall2 (fun b b' => b'.kind == b.kind && b'.role == !b.role && b'.size == b.size) g.batches g'.batches
  | .error a, .error b => a == b
  | _, _ => false
#eval say "C65_batchCount" <| cases.all fun (party, B, rs) => after (newGen party 1 B) rs fun pss g =>
  forall2 (fun q ps => ps.length ≤ batchCount g ((q.2.2 + 127) / 128 * 128)) rs pss
#eval say "C65_no_waste" <| cases.all fun (party, B, rs) => after (newGen party 1 B) rs fun _ g =>
  kinds.all fun k => [true, false].all fun r => (g.batches.filter fun b => b.kind == k && b.role == r && b.size != B).length ≤ 1

/-! ## Starting -/

def logOf (s : Sys) : List Nat := s.sh.log.map (·.1)
def nodup : List Nat → Bool
  | [] => true
  | a :: l => !l.contains a && nodup l
def sched (seed len n : Nat) : List Act := (List.range len).map fun i => let r := rnd (seed * 1000 + i) (n + 1); if r = n then .release else .thread r
/-- Numbers of batches, requested batches, calls of `abort` and seeds of schedules. -/
def starts : List (Nat × List Nat × Nat) := [(1, [0], 0), (3, [2, 0, 1], 0), (4, [1, 1, 3], 1), (5, [4, 2], 2), (4, [2, 0], 0), (6, [0, 3, 1, 3], 0)]
def everyRun (f : Nat → List Nat → Nat → List Act → Sys → Bool) : Bool := starts.all fun (n, ts, a) => (List.range 60).all fun seed =>
  let as := sched seed (10 + seed * 3) (ts.length + a); f n ts a as (run (initSys n ts a) as)
def returned (t : Thread) : Bool := t.pc == .done || t.pc == .skip
#eval say "C41_once" <| everyRun fun _ _ _ _ s => nodup (logOf s) && s.sh.bad == false && s.sh.claims.map (·.1) == List.range s.sh.next
#eval say "C41_all" <| everyRun fun _ ts _ _ s => !s.threads.all returned ||
  ((logOf s).mergeSort (· ≤ ·) == List.range (logOf s).length && ts.all (logOf s).contains)
#eval say "C41_no_more" <| everyRun fun _ ts a _ s => a != 0 || (logOf s).all fun b => ts.any (b ≤ ·)
#eval say "C41_returns" <| everyRun fun n _ _ as s => (List.range s.threads.length).all fun i =>
  (as.countP fun | .thread j => i == j | .release => false) < 2 * n + 3 || (s.threads[i]?.map returned).getD true
#eval say "C41_partial" <| everyRun fun _ _ _ _ s => s.threads.all fun t => t.pc != .done ||
  (List.range t.lim).all fun b => (logOf s).contains b || s.threads.any (·.pc == .set b)
#eval say "C41_false" <| let s := run (initSys 2 [1, 0] 0) [.thread 0, .thread 0, .thread 0, .thread 1, .thread 1, .thread 1]
  s.threads.any fun t => !t.abort && t.lim == 1 && t.pc == .done && !(logOf s).contains 0

/-! ## The loop -/

def running : List Ev → List Nat := List.foldl (fun l e => match e with | .launch i => i :: l | .await i => l.erase i | .drop _ => l) []
def launches (tr : List Ev) : List Nat := tr.filterMap fun | .launch i => some i | _ => none
def awaits (tr : List Ev) : List Nat := tr.filterMap fun | .await i => some i | _ => none
def drops (tr : List Ev) : List Nat := tr.filterMap fun | .drop i => some i | _ => none
def traceOk (nc : Nat) (ab : Nat → Bool) (tr : List Ev) : Bool := (List.range tr.length).all fun k =>
  let p := tr.take k
  match tr[k]? with
  | some (.launch i) => (running p).length < nc && !p.contains (.launch i)
  | some (.await i) => p.contains (.launch i)
  | some (.drop j) => ab j || p.contains (.await j)
  | none => false
#eval say "C42_partial" <| [1, 2, 3, 7].all fun nc => [0, 1, 2, 3, 8].all fun nb => (List.range 4).all fun seed =>
  let ab := fun i => seed != 0 && rnd (seed * 10 + i) 3 == 0
  -- the loop with enough fuel for a good run
  okAnd (loop nb nc ab (nb + nc + 2) 0 ((2 ^ 64 - nc + 1) % 2 ^ 64) ⟨List.replicate nc none, [], []⟩) (fun _ => true) &&
  okAnd (genLoop nb nc ab) fun s => traceOk nc ab s.trace && launches s.trace == (List.range nb).filter (fun i => !ab i) && drops s.trace == List.range nb &&
    running s.trace == [] && (seed != 0 || awaits s.trace == List.range nb)
#eval say "C42_false" <| okAnd (genLoop 2 1 (· == 1)) fun s => awaits s.trace == [0, 0]

/-! ## Base correlations -/

def gets {T : Type} (val : List T) : Nat → List Nat → Res (List (List T) × Nat)
  | ix, [] => .ok ([], ix)
  | ix, n :: ns => do
    let (x, ix) ← get val ix n
    let (xs, ix) ← gets val ix ns
    .ok (x :: xs, ix)
#eval say "C43_supply" <| [[], [0], [3, 2], [4, 1, 5], [10], [11], [5, 5, 0], [5, 5, 1], [9, 2]].all fun ns => let val := (List.range 10).map (· * 7)
  if ns.sum ≤ 10 then okAnd (gets val 0 ns) fun (xs, i) => i == ns.sum && xs.map List.length == ns && xs.flatten == val.take ns.sum
  else isThrow (gets val 0 ns)

/-- Batches of party 0 and of party 1. -/
def sides (seed n : Nat) : List (Side Nat × Side Nat) := (List.range n).map fun i =>
  let a := rnd (seed * 100 + i) 4; let b := rnd (seed * 100 + i + 50) 3
  let r : Side Nat := .recv ((List.range a).map fun k => rnd (seed + 10 * i + k) 2 == 1) ((List.range b).map fun k => rnd (seed + 7 * i + k) 4)
  if rnd (seed * 100 + i + 30) 2 == 1 then (.send a b, r) else (r, .send a b)
def sel (m : Nat × Nat) (c : Bool) : Nat := if c then m.2 else m.1
def f (d : Nat) (x b : Nat) : Nat := b + x * d
/-- What the base protocols give, from the requests. -/
def bases (p q : BaseReq Nat) : BaseCor Nat × BaseCor Nat :=
  let msgs (s n : Nat) := (List.range n).map fun i => (rnd (s + 2 * i) 1000, rnd (s + 2 * i + 1) 1000)
  let vs (s n : Nat) := (List.range n).map fun i => rnd (s + i) 1000
  let mp := msgs 1 p.send; let mq := msgs 1000 q.send; let vp := vs 2000 p.sendVole; let vq := vs 3000 q.sendVole
  (⟨0, List.zipWith sel mq p.choice, 0, mp, 0, 0, vp, List.zipWith (f 1009) p.voleChoice vq⟩,
   ⟨0, List.zipWith sel mp q.choice, 0, mq, 0, 0, vq, List.zipWith (f 1013) q.voleChoice vp⟩)
def fits (d e : Nat) : Side Nat → Side Nat → Slice Nat → Slice Nat → Bool
  | .send n nv, .recv c v, .send o b, .recv o' b' => o.length == n && b.length == nv && o' == List.zipWith sel o c && b' == List.zipWith (f d) v b
  | .recv c v, .send n nv, .recv o' b', .send o b => o.length == n && b.length == nv && o' == List.zipWith sel o c && b' == List.zipWith (f e) v b
  | _, _, _, _ => false
def fits4 : List (Side Nat × Side Nat) → List (Option (Slice Nat)) → List (Option (Slice Nat)) → Bool
  | [], [], [] => true
  | (s, t) :: l, some x :: xs, some y :: ys => fits 1013 1009 s t x y && fits4 l xs ys
  | _, _, _ => false
#eval say "C43_partial" <| (List.range 12).all fun seed => let l := sides seed (seed / 2 + 1)
  let (p, q) := bases (combine (l.map fun x => x.1.request)) (combine (l.map fun x => x.2.request))
  okAnd (setAll p (l.map fun x => (x.1, false))) fun (xs, _) => okAnd (setAll q (l.map fun x => (x.2, false))) fun (ys, _) => fits4 l xs ys
def other : Proto → Proto
  | .sendOt => .recvOt
  | .sendVole => .recvVole
  | .recvOt => .sendOt
  | .recvVole => .sendVole
#eval say "C43_paired" <| (List.range 30).all fun seed => let l := sides seed (seed / 5)
  protos true (combine (l.map fun x => x.2.request)) == (protos false (combine (l.map fun x => x.1.request))).map other
#eval say "C43_false" <| match setAll (F := Nat) ⟨0, [], 0, [(0, 1), (2, 3), (4, 5)], 0, 0, [], []⟩ [(.send 1 0, false), (.send 1 0, true), (.send 1 0, false)],
    setAll (F := Nat) ⟨0, [0, 2, 5], 0, [], 0, 0, [], []⟩ [(.recv [false] [], false), (.recv [false] [], true), (.recv [true] [], false)] with
  | .ok ([_, _, some x], _), .ok ([_, _, some y], _) => !fits 0 0 (.send 1 0) (.recv [true] []) x y
  | _, _ => false
#eval say "C43_false_reachable" <| (run (initSys 3 [0, 2] 1) [.thread 0, .thread 0, .thread 0, .thread 0, .thread 1, .thread 1, .thread 2, .thread 2, .thread 2,
  .thread 1, .thread 1, .thread 1]).sh.log == [(0, false), (1, true), (2, false)]

/-! ## Keys -/

def wanted : Option Nat → List (KeyOp Nat) → List (Res Nat)
  | _, [] => []
  | _, .generate _ k :: os => wanted (some k) os
  | _, .give k :: os => wanted (some k) os
  | _, .set k :: os => wanted (some k) os
  | _, .clear :: os => wanted none os
  | w, .mult :: os => (match w with | none => .error .throw | some k => .ok k) :: wanted w os
def sameRes : List (Res Nat) → List (Res Nat) → Bool := forall2 fun
  | .ok a, .ok b => a == b
  | .error a, .error b => a == b
  | _, _ => false
#eval say "C63_partial" <| [true, false].all fun c => ([[.mult], [.generate [512] 1, .mult, .generate [512] 2, .mult, .clear, .give 3, .mult, .mult], [.give 1, .mult, .set 2, .mult, .clear, .mult],
  [.give 1, .generate [512] 2, .clear, .mult], [.give 1, .clear, .generate [512] 2, .generate [512] 4, .mult, .clear, .mult], [.set 5, .mult, .mult, .give 6, .mult]] : List (List (KeyOp Nat))).all fun os =>
    sameRes (keyRun c {} os) (wanted none os)
#eval say "C63_false" <| [true, false].all fun c => sameRes (keyRun c {} [.generate [512] 1, .set 2, .mult]) [.ok 1] && sameRes (keyRun c {} [.set 2, .generate [512] 1, .mult]) [.ok 1]
#eval say "C63_false_reuse" <| sameRes (keyRun false {} [.generate [512] 1, .mult, .mult]) [.ok 1, .error .throw] &&
  sameRes (keyRun false {} [.generate [512] 1, .mult, .give 2, .mult]) [.ok 1, .error .throw] &&
  sameRes (keyRun true {} [.generate [512] 1, .mult, .mult]) [.ok 1, .ok 1] && sameRes (keyRun true {} [.generate [512] 1, .mult, .give 2, .mult]) [.ok 1, .ok 2]
def room (g : Gen) (k : Kind) (r : Bool) : Nat :=
  match g.cur k r with
  | none => g.batchSize
  | some b => g.batchSize - (g.batches.getD b ⟨k, r, 0⟩).size
#eval say "C64_partial" <| full.all fun (party, B, rs) => [true, false].all fun send => after (newGen party 1 B) rs fun _ g =>
  okAnd (request g .ot send 512) fun (ps, _) => sameRes (keyRun (!send) {} [.generate (ps.map Piece.size) 3, .mult]) [if 512 ≤ room g .ot send then .ok 3 else .error .throw]
#eval say "C64_false" <| after (newGen false 1 1024) [(.ot, false, 768)] fun _ g => okAnd (request g .ot false 512) fun (ps, _) =>
  [true, false].all fun c => sameRes (keyRun c {} [.generate (ps.map Piece.size) 3, .mult]) [.error .throw]

end SecJoin.Checks.Cor
