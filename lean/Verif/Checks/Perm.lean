import Verif.PermCor.Model
import Verif.Checks.Util
/-!
# Tests of C01 to C08
-/
namespace SecJoin.Checks.Perm

def sizes := [0, 1, 2, 7, 8, 9, 16, 19, 25]
def mk (s n : Nat) : SecJoin.Perm := ⟨rperm s n⟩
def bij (l : List Nat) : Bool := l.mergeSort == List.range l.length
def vec (s n : Nat) : List Nat := (List.range n).map fun i => rnd (s + i) 1000000
def src (n : Nat) : Mat Nat := ⟨3, vec 40 n⟩
def dst (n : Nat) : Mat Nat := ⟨3, vec 90 n⟩

#eval say "C01_apply_regular" <| sizes.all fun n => let p := mk 1 n; okAnd (p.apply (src n) (dst n) .regular) fun o =>
  o.cols == 3 && o.rows.length == n && (List.range n).all fun i => o.rows[i]? == (src n).rows[p.pi.getD i 0]?
#eval say "C01_apply_inverse" <| sizes.all fun n => let p := mk 2 n; okAnd (p.apply (src n) (dst n) .inverse) fun o =>
  o.cols == 3 && o.rows.length == n && (List.range n).all fun i => o.rows[p.pi.getD i 0]? == (src n).rows[i]?
#eval say "C01_refuse" <| [(4, 5, 3), (5, 4, 3), (6, 5, 3), (5, 6, 3), (5, 5, 2), (6, 6, 3)].all fun (a, b, c) => [PermOp.regular, .inverse].all fun op =>
  isThrow ((mk 1 5).apply (src a) ⟨c, vec 90 b⟩ op)
#eval say "C01_vector_round_trip" <| sizes.all fun n => let p := mk 3 n
  (okAnd (p.applyVec 0 (vec 7 n) .regular) fun o => okAnd (p.applyVec 0 o .inverse) (· == vec 7 n)) &&
  (okAnd (p.applyVec 0 (vec 7 n) .inverse) fun o => okAnd (p.applyVec 0 o .regular) (· == vec 7 n))
#eval say "C02_compose" <| sizes.all fun n => let a := mk 4 n; let b := mk 5 n
  okAnd (a.compose b) fun c => bij c.pi && c.pi.length == n && (List.range n).all fun i => c.pi[i]? == b.pi[a.pi.getD i 0]?
#eval say "C02_inverse" <| sizes.all fun n => let p := mk 6 n
  okAnd p.inverse fun q => q.pi.length == n && (List.range n).all fun i => q.pi[p.pi.getD i 0]? == some i
#eval say "C02_compose_refuse" <| [(4, 5), (5, 4), (0, 1)].all fun (a, b) => isThrow ((mk 1 a).compose (mk 2 b))
#eval say "C03_randomize" <| sizes.all fun n => [1, 2, 3, 4].all fun s => okAnd (SecJoin.Perm.randomize (fun i => rnd (s * 100 + i) (2 ^ 32)) n) fun p =>
  p.pi.length == n && bij p.pi
#eval say "C04_validate" <| (sizes.all fun n => okAnd (mk 1 n).validate fun _ => true) &&
  [[0, 0], [1], [0, 2], [2, 1, 1], [0, 1, 2, 4], [1, 2, 3], [3, 0, 1, 3], [0, 1, 1]].all fun l => isThrow (SecJoin.Perm.validate ⟨l⟩)
#eval say "C04_additive_validate" <| let s0 := vec 3 9; let s1 := List.zipWith (· ^^^ ·) s0 (rperm 8 9)
  (okAnd (AdditivePerm.validate s0 s1) fun _ => true) && (okAnd (AdditivePerm.validate s1 s0) fun _ => true) &&
  isThrow (AdditivePerm.validate s0 (s1.set 2 (s1.getD 2 0 ^^^ 1))) && isThrow (AdditivePerm.validate s0 (s1.take 8)) && isThrow (AdditivePerm.validate (s0.take 8) s1)

/-! ## Correlations -/
def mat (s n c : Nat) : List Row := (List.range n).map fun i => (List.range c).map fun j => BitVec.ofNat 8 (rnd (s * 7919 + i * 131 + j) 256)
def at' (l : List Row) (i j : Nat) : Byte := (l.getD i []).getD j 0
def shape (n c : Nat) (l : List Row) : Bool := l.length == n && l.all (·.length == c)
def xm (a b : List Row) : List Row := List.zipWith (List.zipWith (· ^^^ ·)) a b
def permuted (op : PermOp) (pi : List Nat) (x y : List Row) : Bool :=
  (List.range pi.length).all fun i => match op with | .regular => y.getD i [] == x.getD (pi.getD i 0) [] | .inverse => y.getD (pi.getD i 0) [] == x.getD i []
def valid (n W off : Nat) (s : PermCorSender) (r : PermCorReceiver) : Bool :=
  bij s.perm.pi && s.perm.pi.length == n && shape n W s.delta && shape n W r.a && shape n W r.b && s.cols * 16 == W && r.cols * 16 == W &&
  s.off == off && r.off == off && (List.range n).all fun i => (List.range W).all fun j => at' s.delta i j ^^^ at' r.b i j == at' r.a (s.perm.pi.getD i 0) j

#eval say "C07_genPermCor" <| [(5, 30), (9, 16), (3, 17), (4, 1)].all fun (n, b) => let W := 16 * ((b + 15) / 16)
  okAnd (genPerm (mk 1 n) b (mat 1 n W) (mat 2 n W)) fun (s, r) => s.perm == mk 1 n && valid n W 0 s r && b ≤ W
def calls : List (PermOp × Nat × Bool) := [(.regular, 5, true), (.inverse, 7, true), (.inverse, 1, false), (.regular, 9, false), (.inverse, 10, true)]
#eval say "C05_history" <| let n := 9; let W := 32; okAnd (genPerm (mk 1 n) 32 (mat 1 n W) (mat 2 n W)) fun (s, r) => Id.run do
  let mut s := s; let mut r := r; let mut off := 0; let mut ok := true; let r0 := r
  for (op, c, two) in calls do
    let x := mat (50 + off) n c
    let y := if two then mat (60 + off) n c else mat (60 + off) n c |>.map (·.map fun _ => 0)
    match applyBoth s r op ⟨c, x⟩ (if two then some ⟨c, y⟩ else none) with
    | .ok (s', r', msg, so, ro) =>
      let key := match op with | .regular => r0.a | .inverse => r0.b
      ok := ok && so.cols == c && ro.cols == c && shape n c so.rows && shape n c ro.rows && permuted op s.perm.pi (xm x y) (xm so.rows ro.rows) &&
        ((List.range n).all fun i => (List.range c).all fun j => at' msg.rows i j == at' x i j ^^^ at' key i (off + j)) && valid n W (off + c) s' r'
      s := s'; r := r'; off := off + c
    | .error _ => ok := false
  return ok && off == 32
#eval say "C05_refuse" <| let n := 4; okAnd (genPerm (mk 1 n) 16 (mat 1 n 16) (mat 2 n 16)) fun (s, r) => [PermOp.regular, .inverse].all fun op =>
  isThrow (s.applyRemote op n 17 ⟨17, mat 3 n 17⟩) && isThrow (r.apply op ⟨17, mat 3 n 17⟩ n 17) && isThrow (s.apply op ⟨17, mat 4 n 17⟩ n 17 ⟨17, mat 3 n 17⟩) &&
  isThrow ({ s with off := 10 }.applyRemote op n 7 ⟨7, mat 3 n 7⟩) && isThrow ({ r with off := 10 }.apply op ⟨7, mat 3 n 7⟩ n 7)
#eval say "C05_validate" <| let n := 6; okAnd (genPerm (mk 1 n) 16 (mat 1 n 16) (mat 2 n 16)) fun (s, r) =>
  (okAnd (validateCor s r) fun _ => true) && isThrow (validateCor s { r with a := r.a.set 5 (mat 9 1 16).head! }) && isThrow (validateCor s { r with b := r.b.set 0 (mat 9 1 16).head! })
#eval say "C06_derandomize" <| [1, 6, 9, 17].all fun n => okAnd (genPerm (mk 1 n) 32 (mat 1 n 32) (mat 2 n 32)) fun (s, r) => let q := mk 7 n
  okAnd (s.derandomize q) fun (s', m) => okAnd (r.derandomize m) fun r' => s'.perm == q && valid n 32 0 s' r' && (List.range n).all fun i => m[q.pi.getD i 0]? == s.perm.pi[i]?
def shared (c0 c1 : ComposedPerm) : List Nat := c1.snd.perm.pi.map fun i => c0.snd.perm.pi.getD i 0
def validC (n W o0 o1 : Nat) (c0 c1 : ComposedPerm) : Bool := c0.idx == 0 && c1.idx == 1 && valid n W o0 c0.snd c1.rcv && valid n W o1 c1.snd c0.rcv
def gen (n : Nat) : Res (ComposedPerm × ComposedPerm) := ComposedPerm.genPerm (mk 1 n) (fun i => rnd (i + 5) (2 ^ 32)) 32 (mat 1 n 32) (mat 2 n 32) (mat 3 n 32) (mat 4 n 32)
#eval say "C07_genPerm" <| [1, 5, 11].all fun n => okAnd (gen n) fun (c0, c1) => validC n 32 0 0 c0 c1 && shared c0 c1 == (mk 1 n).pi &&
  okAnd (ComposedPerm.validate (mk 1 n) c0 c1) fun _ => true
#eval say "C07_validate" <| okAnd (gen 6) fun (c0, c1) => isThrow (ComposedPerm.validate (mk 2 6) c0 c1) && isThrow (ComposedPerm.validate (mk 1 6) c1 c0) &&
  isThrow (ComposedPerm.validate (mk 1 6) c0 { c1 with rcv := { c1.rcv with a := c1.rcv.b } }) && isThrow (ComposedPerm.validate (mk 1 6) { c0 with rcv := { c0.rcv with b := c0.rcv.a } } c1)
#eval say "C07_apply" <| [1, 5, 11].all fun n => [PermOp.regular, .inverse].all fun op => okAnd (gen n) fun (c0, c1) => let x0 := mat 20 n 13; let x1 := mat 21 n 13
  okAnd (ComposedPerm.applyBoth c0 c1 op ⟨13, x0⟩ ⟨13, x1⟩) fun (d0, d1, y0, y1) => validC n 32 13 13 d0 d1 && shared d0 d1 == shared c0 c1 &&
    shape n 13 y0.rows && shape n 13 y1.rows && permuted op (shared c0 c1) (xm x0 x1) (xm y0.rows y1.rows)
#eval say "C07_refuse" <| okAnd (gen 6) fun (c0, _) => isThrow (c0.guard ⟨3, mat 1 6 3⟩ 5 3) && isThrow (c0.guard ⟨3, mat 1 6 3⟩ 6 4) && isThrow (c0.guard ⟨33, mat 1 6 33⟩ 6 33) &&
  isThrow ({ c0 with idx := 2 }.guard ⟨3, mat 1 6 3⟩ 6 3) && isThrow (c0.guard ⟨3, mat 1 5 3⟩ 6 3)
def w32 (s n : Nat) : List (BitVec 32) := (List.range n).map fun i => BitVec.ofNat 32 (rnd (s * 99 + i) (2 ^ 32))
#eval say "C07_compose" <| [1, 5, 11].all fun n => okAnd (gen n) fun (c0, c1) => okAnd (ComposedPerm.composeBoth c0 c1 (w32 1 n) (w32 2 n)) fun (d0, d1, a, b) =>
  validC n 32 4 4 d0 d1 && a.length == n && b.length == n && (List.range n).all fun i => let k := (shared c0 c1).getD i 0
    a.getD i 0 ^^^ b.getD i 0 == (w32 1 n).getD k 0 ^^^ (w32 2 n).getD k 0
#eval say "C08_derandomize" <| [1, 5, 11].all fun n => okAnd (gen n) fun (c0, c1) => let s0 := w32 1 n; let q := rperm 12 n
  let s1 := List.zipWith (fun a b => a ^^^ BitVec.ofNat 32 b) s0 q
  okAnd (ComposedPerm.derandomizeBoth c0 c1 s0 s1) fun (d0, d1) => validC n 32 0 4 d0 d1 && shared d0 d1 == q

end SecJoin.Checks.Perm
