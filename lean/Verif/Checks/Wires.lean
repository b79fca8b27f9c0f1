import Verif.GMW.Wires
import Verif.Checks.Util
/-! Instances of the theorems on the memory of wires, evaluated. -/
namespace SecJoin.Checks.Wires
open SecJoin.Gmw SecJoin.Gmw.Wires

def junk (r k : Nat) : Block := BitVec.ofNat 128 (rnd (17 * r + k) (2 ^ 60) * 2 ^ 66 + rnd (r + 31 * k) (2 ^ 62))
def pad (j r : Nat) : Bool := rnd (j * 1000 + r) 2 == 1
def rows (seed n c : Nat) : List (List (BitVec 8)) := (List.range n).map fun i => (List.range c).map fun j => BitVec.ofNat 8 (rnd (seed * 7919 + 10 * i + j) 256)
def heap (r : Nat) : List Block := (List.range (match r with | 0 => 18 | 1 => 9 | 2 => 30 | _ => 0)).map fun k => junk (50 + r) k
def bit (w : List Block) (r : Nat) : Bool := (w.getD (r / 128) 0).getLsbD (r % 128)
def mbit (m : List Block) (stride j r : Nat) : Bool := (m.getD (j * stride + r / 128) 0).getLsbD (r % 128)

-- inputs of 3, 9 and 1 wires, outputs of 2, 6 and 1 wires; the wires lie in another order
def ins : List (List Nat) := [[4, 5, 6], [10, 11, 12, 13, 14, 15, 16, 17, 18], [0]]
def outs : List (List Nat) := [[20, 21], [24, 25, 26, 27, 28, 29], [2]]
def wires : Nat := 32
structure Case where
  n : Nat
  ops : List Op
  vals : Nat → Nat → Nat → Bool
  out : Nat → Option TMat := fun _ => none
def setBits (m : List (List (BitVec 8))) (j r : Nat) : Bool := ((m.getD r []).getD (j / 8) 0).getLsbD (j % 8)
def cases : List Case := [
  ⟨130, [.setInput 0 (rows 1 130 1) 1 1, .setInput 1 (rows 2 130 2) 2 1, .setInput 2 (rows 3 130 1) 1 1],
    fun i => if i = 0 then setBits (rows 1 130 1) else if i = 1 then setBits (rows 2 130 2) else setBits (rows 3 130 1), fun _ => none⟩,
  ⟨128, [.setInput 2 (rows 4 128 8) 8 8, .mapInput 1 ⟨0, 9, 32, 128⟩, .setZero 0],
    fun i => if i = 0 then fun _ _ => false else if i = 1 then mbit (heap 0) 2 else setBits (rows 4 128 8), fun _ => none⟩,
  ⟨200, [.mapOutput 1 ⟨2, 6, 80, 200⟩, .setZero 1, .setInput 1 (rows 5 200 2) 2 2, .setZero 2, .mapInput 0 ⟨1, 3, 48, 200⟩],
    fun i => if i = 0 then mbit (heap 1) 3 else if i = 1 then setBits (rows 5 200 2) else fun _ _ => false, fun i => if i = 1 then some ⟨2, 6, 80, 200⟩ else none⟩,
  ⟨5, [.setInput 1 (rows 6 5 2) 2 1, .setInput 1 (rows 7 5 2) 2 1, .mapOutput 1 ⟨2, 6, 16, 5⟩, .setInput 2 (rows 8 5 1) 1 1, .setInput 0 (rows 9 5 4) 4 4, .setZero 2],
    fun i => if i = 0 then setBits (rows 9 5 4) else if i = 1 then setBits (rows 7 5 2) else fun _ _ => false, fun i => if i = 1 then some ⟨2, 6, 16, 5⟩ else none⟩]

/-- The memory the caller has, cut to the size of the mapped matrices. -/
def mem (ops : List Op) (r : Nat) : List Block :=
  let ds := ops.filterMap fun o => match o with | .mapInput _ d => some d | .mapOutput _ d => some d | _ => none
  match ds.find? (·.reg == r) with
  | some d => (heap r).take (d.bits * (d.cols / 16))
  | none => heap r
def start (c : Case) : Res St := do
  let s ← steps junk pad c.ops (init c.n wires ins outs (mem c.ops) 3)
  finalize junk s
def eqOk {α : Type} [BEq α] (a : Res α) (b : α) : Bool := okAnd a (· == b)
def word (seed w : Nat) : List Block := (List.range w).map fun k => junk (900 + seed) k

#eval say "C71_wires" <| cases.all fun c => okAnd (start c) fun s =>
  let w := (c.n + 127) / 128
  ((List.range wires).all fun x => okAnd (getWire s x) fun v => v.length == w) &&
  ((List.range ins.length).all fun i => (List.range (ins.getD i []).length).all fun j => okAnd (getWire s ((ins.getD i []).getD j 0)) fun v =>
    (List.range c.n).all fun r => bit v r == c.vals i j r) &&
  ((List.range wires).all fun x => okAnd (setWire s x (word x w)) fun s2 => (List.range wires).all fun y => if x == y then eqOk (getWire s2 y) (word x w) else
    okAnd (getWire s y) fun v => eqOk (getWire s2 y) v) &&
  okAnd ((List.range wires).foldlM (fun s x => setWire s x (word x w)) s) fun s2 => (List.range wires).all fun y => eqOk (getWire s2 y) (word y w)
def written (c : Case) : Res St := do (List.range wires).foldlM (fun s x => setWire s x (word x ((c.n + 127) / 128))) (← start c)
#eval say "C71_output" <| cases.all fun c => okAnd (written c) fun s => (List.range outs.length).all fun i => let b := outs.getD i []
  [1, 4].all fun align => let cols := (b.length + 8 * align - 1) / (8 * align) * align
  if (match c.out i with | some d => d.cols / 16 == (c.n + 127) / 128 | none => true) then
    okAnd (getOutput junk s i c.n cols align) fun f => (List.range b.length).all fun j => okAnd (getWire s (b.getD j 0)) fun v =>
      (List.range c.n).all fun r => f r j == bit v r
  else true
#eval say "C71_mapped" <| cases.all fun c => okAnd (written c) fun s => (List.range outs.length).all fun i => let b := outs.getD i []
  match c.out i with
  | none => true
  | some d => b.length == d.bits && (List.range b.length).all fun j => okAnd (getWire s (b.getD j 0)) fun v =>
      (List.range c.n).all fun r => mbit (s.heap d.reg) (d.cols / 16) j r == bit v r
#eval say "C71_gap" <| cases.all fun c => okAnd (start c) fun s => (List.range outs.length).all fun i => match c.out i with
  | some d => d.cols / 16 == (c.n + 127) / 128 || isThrow (getOutput junk s i c.n ((outs.getD i []).length + 7) 1) && isThrow (getOutput junk s i c.n 1 1)
  | none => true
def pre (ops : List Op) (n : Nat := 130) : Res St := steps junk pad ops (init n wires ins outs (mem ops) 3)
#eval say "C71_unset" <| [[], [Op.setZero 0], [.setZero 0, .setZero 1], [.setZero 1, .setZero 2], [.setZero 0, .setZero 2], [.setZero 0, .setZero 0, .setZero 0]].all (fun ops =>
    okAnd (pre ops) fun s => isThrow (finalize junk s)) && okAnd (pre [.setZero 2, .setZero 0, .setZero 1]) fun s => okAnd (finalize junk s) fun _ => true
#eval say "C71_accepted" <| cases.all fun c => okAnd (pre c.ops c.n) fun _ => true
#eval say "C71_refused" <| [[], [Op.setZero 0], [.mapInput 1 ⟨0, 9, 32, 130⟩, .mapOutput 1 ⟨2, 6, 80, 130⟩]].all fun ops => okAnd (pre ops) fun s =>
  let no (o : Op) := isThrow (step junk pad s o)
  ([3, 4].all fun i => no (.setInput i (rows 1 130 1) 1 1) && no (.setZero i) && no (.mapInput i ⟨1, 3, 32, 130⟩) && no (.mapOutput i ⟨1, 3, 32, 130⟩)) &&
  no (.mapInput 0 ⟨1, 2, 32, 130⟩) && no (.mapInput 0 ⟨1, 4, 32, 130⟩) && no (.mapInput 2 ⟨1, 1, 32, 131⟩) && no (.mapInput 2 ⟨1, 1, 32, 129⟩) && no (.mapInput 2 ⟨1, 1, 40, 130⟩) &&
  no (.mapOutput 0 ⟨1, 1, 32, 130⟩) && no (.mapOutput 0 ⟨1, 2, 32, 100⟩) && no (.mapOutput 0 ⟨1, 2, 33, 130⟩) &&
  no (.setInput 2 (rows 1 129 1) 1 1) && no (.setInput 2 (rows 1 131 1) 1 1) && no (.setInput 0 (rows 1 130 2) 2 1) && no (.setInput 1 (rows 1 130 1) 1 1) && no (.setInput 0 (rows 1 130 0) 0 1) &&
  ops.all fun o => match o with
    | .setZero 0 => no (.mapInput 0 ⟨1, 3, 32, 130⟩)
    | .mapInput 1 _ => no (.mapInput 1 ⟨1, 9, 32, 130⟩)
    | .mapOutput 1 _ => no (.mapOutput 1 ⟨1, 6, 32, 130⟩)
    | _ => true
-- one wire is left after the inputs and outputs are mapped
#eval say "C71_wires" <| [1, 130].all fun n => [6, 7].all fun wires => okAnd (do
    let s ← steps junk pad [Op.setZero 0, .mapOutput 0 ⟨0, 3, 32, n⟩] (init n wires [[0, 1, 2]] [[3, 4, 5]] (fun r => (heap r).take 6) 3)
    finalize junk s) fun s => (List.range wires).all fun x => okAnd (getWire s x) fun v => v.length == (n + 127) / 128
#eval say "C71_refused" <| [[0, 1, 3], [2, 3, 4, 4], [1, 0], [0, 2]].all fun b => [[], [Op.mapOutput 0 ⟨0, 1, 32, 130⟩]].all fun ops => okAnd (do
    let s ← steps junk pad ops (init 130 8 [b] [[6]] (fun r => (heap r).take 2) 3)
    .ok s) (fun s => isThrow (step junk pad s (.setZero 0)) && isThrow (step junk pad s (.setInput 0 (rows 1 130 1) 1 1))) &&
  okAnd (steps junk pad [] (init 130 8 [] [b] heap 3)) fun s => isThrow (getOutput junk s 0 130 1 1)
#eval say "C71_false" <| okAnd (pre []) fun s => isUb (getOutputBin junk s 3 130 1)
#eval say "C71_bin" <| cases.all fun c => okAnd (written c) fun s => (List.range 3).all fun i => [1, 2, 6].all fun bits =>
  if bits == (outs.getD i []).length then match getOutputBin junk s i c.n bits, getOutput junk s i c.n ((bits + 7) / 8) 1 with
    | .ok f, .ok g => (List.range c.n).all fun r => (List.range bits).all fun j => f r j == g r j
    | .error _, .error _ => true
    | _, _ => false
  else isThrow (getOutputBin junk s i c.n bits)

end SecJoin.Checks.Wires
