import Verif.Cor.Live
import Verif.Checks.Util
/-!
# Tests of C78
-/
namespace SecJoin.Checks.Live
open SecJoin.Live

/-- The protocols of the tests: a PRF, a circuit, an exchange in the other direction. -/
def Q (p : Bool) (t : Nat) : List Op :=
  prf ⟨1, [0, 1], some 2, some 3, 2, 5, [4, 5]⟩ p t ++ (if t ≠ 0 then [] else gmw 7 [([6], 2), ([6, 7], 1)]) ++
    (if t ≠ 0 then [] else if p = false then exchRecv 8 [8] else exchSend 8 [8])
def P (nc : Nat) (mock : Bool) (pre : Bool → List Nat) : Par := ⟨9, nc, mock, fun p t => if t = 2 then (pre p).map .start else Q p t⟩
def acts : List Act := [false, true].flatMap fun p => [.gen p] ++ (List.range 3).map (.op p) ++ (List.range 9).map (.finish p)
structure Tab (α : Type) where
  a : Array α
  b : Array α
@[noinline] def Tab.mk2 {α : Type} (f : Bool → Nat → α) : Tab α := ⟨(Array.range 12).map (f false), (Array.range 12).map (f true)⟩
@[noinline] def Tab.mk1 {α : Type} (f : Bool → α) : α × α := (f false, f true)
@[noinline] def Tab.get {α : Type} [Inhabited α] (T : Tab α) (p : Bool) (t : Nat) : α := if p then T.b[t]! else T.a[t]!
@[noinline] def Tab.get1 {α : Type} (T : α × α) (p : Bool) : α := if p then T.2 else T.1
@[noinline] def thaw (a c d : Tab Nat) (e f : Tab Bool) (w g h : Nat × Nat) : St := ⟨a.get, Tab.get1 w, c.get, d.get, e.get, Tab.get1 g, f.get, Tab.get1 h⟩
/-- The same state in tables. -/
def freeze (s : St) : St := thaw (.mk2 s.pos) (.mk2 s.sent) (.mk2 s.rcvd) (.mk2 s.raised) (.mk2 s.ready) (Tab.mk1 s.want) (Tab.mk1 s.pc) (Tab.mk1 s.cut)
/-- `n` random steps, then `k` times all in a random order. -/
def go (Q : Par) (s : St) (sd n k : Nat) : St := Id.run do
  let mut s := s
  for i in [0:n] do
    s := freeze (step Q s (acts.getD (rnd (sd * 7919 + i) acts.length) (.gen true)))
  for i in [0:k] do
    s := freeze (run Q s ((rperm (sd * 31 + i) acts.length).map fun j => acts.getD j (.gen true)))
  return s
def fin (Q : Par) (s : St) : Bool := [false, true].all fun p => (List.range 4).all fun t => decide ((Q.prog p t).length ≤ s.pos p t)
def pres : List (Bool → List Nat) := [fun _ => [], fun p => if p then [8, 2] else [], fun p => if p then [3] else [1, 6], fun _ => [8]]

#eval say "C78_protocols" <| [1, 2, 3, 20].all fun nc => [false, true].all fun mock => pres.all fun pre => [1, 2].all fun sd =>
  let s := go (P nc mock pre) (init (P nc mock pre)) (sd + nc) (60 * sd) 90
  fin (P nc mock pre) s && [false, true].all fun p => (List.range 3).all fun t => s.sent p t == s.rcvd (!p) t
/-- Party 0 alone has a second coroutine. -/
def lone : Par := ⟨1, 2, false, fun p t => match p, t with
  | false, 0 => getOps 0 0 ++ [.raise 0, .wait 1, .send] | false, 1 => [.wait 0, .raise 1] | true, 0 => [.recv] ++ getOps 0 0 | _, _ => []⟩
def lone' : Par := ⟨1, 2, false, fun p t => match p, t with
  | false, 0 => getOps 0 0 ++ [.raise 0, .wait 1, .send] | false, 1 => [.wait 0, .raise 1] | true, 0 => getOps 0 0 ++ [.recv] | _, _ => []⟩
#eval say "C78_fair" <| [1, 2, 3].all fun sd => fin lone' (go lone' (init lone') sd 20 30) && !fin lone (go lone (init lone) sd 20 30)
#eval say "C78_generator" <| [1, 2, 3, 20].all fun nc => pres.all fun pre =>
  let s := go (P nc false pre) (init (P nc false pre)) nc 0 100
  [false, true].all fun p => s.pc p == 2 * (9 + nc - 1)
def ex (q : Bool) (nb last : Nat) (bs : List Nat) (mock : Bool) : Par :=
  ⟨nb, 2, mock, fun p t => if t ≠ 0 then [] else if p = q then exchRecv last bs else exchSend last bs⟩
#eval say "C78_exchange" <| [([0], 0, 1), ([0, 1, 2], 2, 3), ([1, 1, 3], 5, 6)].all fun (bs, last, nb) => [false, true].all fun q => [1, 2, 3].all fun sd =>
  fin (ex q nb last bs false) (go (ex q nb last bs false) (init (ex q nb last bs false)) sd 20 50)
def two (r : PrfReq) : Par := ⟨6, 2, false, prf r⟩
#eval say "C78_prf" <| [(⟨0, [0], none, none, 3, 1, [1]⟩ : PrfReq), ⟨1, [0, 1], some 2, some 3, 2, 5, [4, 5]⟩, ⟨0, [0], some 1, none, 1, 3, [2]⟩, ⟨0, [0], some 1, none, 1, 0, []⟩, ⟨0, [], none, some 2, 1, 0, []⟩].all fun r => [1, 2, 3].all fun sd =>
  fin (two r) (go (two r) (init (two r)) sd 20 50)
def gm (k : List (List Nat × Nat)) : Par := ⟨4, 2, false, fun _ t => if t ≠ 0 then [] else gmw 3 k⟩
#eval say "C78_gmw" <| [[([0], 1)], [([], 2), ([0, 1], 1)], [([3], 3), ([], 0), ([2], 1)]].all fun k => [1, 2, 3].all fun sd =>
  fin (gm k) (go (gm k) (init (gm k)) sd 20 50)
/-- Only one party uses a correlation. -/
def one (mock : Bool) : Par := ⟨3, 2, mock, fun p t => if p = true ∧ t = 0 then getOps 2 1 else if p = false ∧ t = 0 then getOps 0 0 else []⟩
#eval say "C78_both_needed" <| [1, 2, 3].all fun sd =>
  let s := go (one false) (init (one false)) sd 20 30; let s' := go (one true) (init (one true)) sd 20 30
  [false, true].all (fun p => s.ready p 0 && !s.ready p 1 && !s.ready p 2) && s'.ready true 1 && !s'.ready false 1 && fin (one true) s' && s.pos true 0 == 1
/-- Nothing that depends on the other party happens alone. -/
def alone (Q : Par) (p : Bool) (n : Nat) : St :=
  (List.range n).foldl (fun s _ => freeze (run Q s (.gen p :: ((List.range 3).map (.op p) ++ (List.range 9).map (.finish p))))) (init Q)
#eval say "C78_alone" <| [false, true].all fun p => let s := alone (ex p 3 2 [0, 1, 2] false) p 30; let s' := alone (ex (!p) 3 2 [0, 1, 2] true) p 30
  s.pos p 0 == 1 && !s.ready p 0 && s'.pos p 0 == 2 && s'.ready p 0 && s'.ready p 2 && s'.pc p == 8 && s'.pc (!p) == 0 && s.want p == 3 && s.want (!p) == 0 && s.pc p == 3
#eval say "C78_abort" <| [false, true].all fun q => [false, true].all fun p => [1, 2].all fun sd =>
  let E := ex p 3 1 [0, 1] false
  let s := go E (step E (init E) (.abort q)) sd 20 50
  let E' := ex p 3 0 [0] false
  let m := step E' (run E' (init E') [.op q 0]) (.abort q)
  let s' := go E' m sd 20 50
  !fin E s && s.pos false 0 ≤ 1 && s.pos true 0 ≤ 1 && [0, 1, 2].all (fun b => !s.ready false b && !s.ready true b) &&
    fin E' s' && s'.ready p 0 && !s'.ready q 1 && !s'.ready (!q) 1
#eval say "C78_abort_generator" <| [1, 2, 3].all fun nc =>
  let E : Par := ⟨3, nc, false, fun _ _ => []⟩
  let s := go E (step E (init E) (.abort true)) 5 20 50
  s.pc true == 2 * (3 + nc - 1) && s.pc false == 0

end SecJoin.Checks.Live
