import Verif.TableOps.WhereParserSpec
import Verif.TableOps.Where
import Verif.TableOps.WhereRemove
import Verif.Checks.Util
/-!
# Tests of C35 to C38 and C68
-/
namespace SecJoin.Checks.Where

/-! ## Literals and clauses -/
open SecJoin.WhereP
def txt (s : String) : List Byte := s.toUTF8.toList.map (·.toBitVec)
def vals : List Int := [0, 1, -1, 2, -2, 3, -3, 7, 8, -8, -9, 127, 128, -128, -129, 255, 256, 65535, -65536, 2 ^ 62, -2 ^ 62, 2 ^ 63 - 1, -2 ^ 63]
#eval say "C37_int" <| vals.all fun v => okAnd (literal .int (txt (toString v))) fun b => sval b == v && b.length ≤ 64 && b.length ≥ 2 &&
  (b.length == 2 || (sval (b.take (b.length - 1)) != v))
#eval say "C37_text" <| [("+5", 5), (" 12x", 12), ("007", 7), ("-0", 0)].all fun (s, v) => okAnd (literal .int (txt s)) fun b => sval b == v
#eval say "C37_refused" <| ["", "x", "-", "9223372036854775808"].all fun s => isThrow (literal .int (txt s))
#eval say "C37_boolean" <| [("1", true), ("true", true), ("0", false), ("false", false)].all (fun (s, v) => okAnd (literal .boolean (txt s)) (· == [v])) &&
  ["", "True", "2", "tru", "falsee", "10"].all fun s => isThrow (literal .boolean (txt s))
#eval say "C37_string" <| ["", "a", "hello", "zz9"].all fun s => okAnd (literal .string (txt s)) fun b => b.length == 8 * s.length &&
  (List.range s.length).all fun j => uval ((b.drop (8 * j)).take 8) == ((txt s).getD j 0).toNat
#eval say "C37_bin" <| [[], [1], [0x5, 0xa7], [255, 3, 17]].all fun (d : List Byte) => okAnd (literal .bin (hex d)) fun b => b == (byteBits d).take d.length
def run (cs : List Call) (v : Nat → Bool) : Nat → Bool := runCalls ⟨fun a b => a == b, fun a b => decide (sval a < sval b), fun a b => decide (sval b ≤ sval a),
  fun a b n => (List.range n).map (uval a + uval b).testBit⟩ cs v
#eval say "C37_widen" <| [ColumnType.int, .boolean, .string].all fun t => [1, 2, 5, 8].all fun n => [0, 1, 3].all fun e => (List.range 12).all fun sd =>
  let v := fun i => rnd (sd * 100 + i) 2 == 1
  okAnd (getBundle ⟨(List.range n).map (· + 3), t⟩ (n + e) ⟨[], 20, []⟩) fun (ws, s) => ws.length == n + e &&
    den t (ws.map (run s.calls v)) == den t (((List.range n).map (· + 3)).map v)
def infos : List ColumnInfo := [⟨[97], .int, 8⟩, ⟨[98], .int, 3⟩, ⟨[115], .string, 16⟩, ⟨[102], .boolean, 1⟩, ⟨[120], .bin, 5⟩, ⟨[97], .string, 24⟩]
def kinds : List GateKind := [.equals, .notEquals, .and, .or, .addition, .lessThan, .greaterThanEquals, .xor, .other]
def lib : Lib := ⟨fun a b => a.length == b.length && a == b, fun a b => a.length == b.length && decide (sval a < sval b), fun a b => a.length == b.length && decide (sval b ≤ sval a),
  fun a b n => if a.length == b.length then (List.range n).map (uval a + uval b).testBit else []⟩
def names : List (List Byte) := [[97], [98], [115], [102], [120]]
def lits : List (List Byte) := [txt "5", txt "-3", txt "b", txt "true"]
def ltys : List ColumnType := [.int, .int, .string, .boolean]
/-- Random clauses, most of them acceptable. -/
def clause (s k : Nat) : List ArrGate := (List.range k).map fun i => let q := rnd (s * 50 + 5 * i) 8
  if i > 0 && rnd (s * 50 + 5 * i + 3) 3 == 0 then ⟨[GateKind.and, .or, .xor].getD (rnd (s * 50 + 5 * i + 4) 3) .and, 8 + i, 3 + 5 * rnd (s * 50 + 5 * i + 1) 2, 9 + i⟩
  else ⟨kinds.getD q .other, rnd (s * 50 + 5 * i + 1) (9 + i), rnd (s * 50 + 5 * i + 2) (9 + i), 9 + i⟩
/-- Which clauses are acceptable, as types and widths. -/
def accept : List ArrGate → List (ColumnType × Nat) → Bool
  | [], _ => true
  | g :: gs, env =>
    let a := env.getD g.in0 (.bin, 0); let b := env.getD g.in1 (.bin, 0)
    decide (g.in0 < env.length) && decide (g.in1 < env.length) && g.out == env.length &&
    match g.kind with
    | .equals | .notEquals => accept gs (env ++ [(.boolean, 1)])
    | .and | .or | .xor => a.2 == 1 && b.2 == 1 && accept gs (env ++ [(.boolean, 1)])
    | .addition => gs != [] && accept gs (env ++ [(.int, max a.2 b.2)])
    | .lessThan | .greaterThanEquals => (a.1 == .int || b.1 == .int) && accept gs (env ++ [(.boolean, 1)])
    | .other => false
def cols (s : Nat) : List (List Bool) := [8, 3, 16, 1, 5].map fun n => (List.range n).map fun i => rnd (s * 40 + i * 3 + n) 2 == 1
def litv : List (List Bool) := [[true, false, true, false], [true, false, true], (List.range 8).map (98 : Nat).testBit, [true]]
def envOf (s : Nat) : List SVal := List.zipWith SVal.ofBits [.int, .int, .string, .boolean, .bin] (cols s) ++ List.zipWith SVal.ofBits ltys litv
def sigs : List (ColumnType × Nat) := [(.int, 8), (.int, 3), (.string, 16), (.boolean, 1), (.bin, 5), (.int, 4), (.int, 3), (.string, 8), (.boolean, 1)]
#eval say "C38_accepted" <| (List.range 1500).all fun s => let g := clause s (1 + s % 4)
  match parse infos g names lits ltys with | .ok _ => accept g sigs | .error e => !accept g sigs && e == .throw
#eval say "C38_order" <| isThrow (parse infos [⟨.equals, 0, 0, 8⟩] names lits ltys) && isThrow (parse infos [⟨.equals, 0, 0, 10⟩] names lits ltys) &&
  isThrow (parse infos [⟨.equals, 9, 0, 9⟩] names lits ltys) && isThrow (parse infos [⟨.equals, 0, 9, 9⟩] names lits ltys) &&
  isThrow (parse infos [⟨.equals, 0, 0, 9⟩] names lits (ltys.drop 1)) && isThrow (parse infos [⟨.equals, 0, 0, 8⟩] names lits (ltys.take 3)) && isThrow (parse infos [⟨.equals, 0, 0, 9⟩] ([99] :: names) lits ltys) &&
  isThrow (parse infos [⟨.and, 3, 0, 9⟩] names lits ltys) && isThrow (parse infos [⟨.and, 0, 3, 9⟩] names lits ltys) && isThrow (parse infos [⟨.lessThan, 2, 3, 9⟩] names lits ltys)
#eval say "C38_eval" <| (List.range 900).all fun s => let g := clause s (1 + s % 4)
  match parse infos g names lits ltys with
  | .error _ => true
  | .ok c => (List.range 4).all fun i => !decide (AllFit g (envOf (s + i))) || c.eval lib (cols (s + i)) (fun w => rnd (w + i) 2 == 1) == holds g (envOf (s + i))
def onceB (ins : Nat) : List Nat → List Call → Bool
  | _, [] => true
  | W, .inv w :: cs => W.head? == some w && onceB ins W cs
  | W, c :: cs => (c.reads.all fun r => decide (r < ins) || W.contains r) && (c.writes.all fun w => decide (ins ≤ w) && !W.contains w) && onceB ins (c.writes ++ W) cs
#eval say "C38_once" <| (List.range 900).all fun s => let g := clause s (1 + s % 4)
  match parse infos g names lits ltys with
  | .error _ => true
  | .ok c => onceB c.inputs.flatten.length [] c.calls && decide (c.inputs.flatten.length ≤ c.out) && c.calls.any (fun x => x.writes.contains c.out) &&
    c.calls.all (fun x => x.writes.all fun w => w < c.wires)

/-! ## Inlining of circuits -/
open SecJoin.Gmw
def types : List GateType := [.zero, .nor, .naAnd, .na, .nbAnd, .nb, .xor, .nand, .and, .nxor, .a, .nbOr, .b, .naOr, .or, .one]
/-- A circuit with inputs of the given sizes, one output of each of the given sizes, and internal wires, of which each is assigned before it is read. -/
def circ (s : Nat) (is os : List Nat) (k : Nat) : Circuit :=
  let i := is.sum; let o := os.sum
  let inner := (List.range k).map fun j => (⟨let r := rnd (s * 90 + 3 * j) (i + j); if r < i then r else r + o, let r := rnd (s * 90 + 3 * j + 1) (i + j); if r < i then r else r + o, i + o + j,
    types.getD (rnd (s * 90 + 3 * j + 2) 16) .and⟩ : Gate)
  let outer := (List.range o).map fun j => (⟨let r := rnd (s * 97 + 3 * j) (i + k); if r < i then r else r + o, let r := rnd (s * 97 + 3 * j + 1) (i + k); if r < i then r else r + o, i + j,
    types.getD (rnd (s * 97 + 3 * j + 2) 16) .and⟩ : Gate)
  ⟨WhereT.bundles 0 is, WhereT.bundles i os, i + o + k, inner ++ outer, fun _ => .plain⟩
#eval say "C68_evaluate" <| (List.range 40).all fun s => [([2, 1], [1, 2], 3), ([3], [1], 0), ([1, 1, 2], [2], 5)].all fun (is, os, k) =>
  let c := circ s is os k; let i := is.sum; let o := os.sum
  let ins := ((WhereT.bundles 0 is).map fun l => l.map fun w => (rperm s i).getD w 0 + 1); let outs := (WhereT.bundles (i + 3) os)
  okAnd (evaluate (rnd s 9) ⟨i + o + 6, [⟨1, 1, 2, .na⟩]⟩ c ins outs) fun p => (List.range 3).all fun t => let v := fun w => rnd (s * 7 + t * 1000 + w) 2 == 1
    let before := evalGates [⟨1, 1, 2, .na⟩] v; let after := evalGates p.gates v
    outs.map (·.map after) == c.eval (ins.map (·.map before)) (fun w => rnd (w + 5) 2 == 1) && p.wires == i + o + 6 + k &&
    (List.range (i + o + 6)).all fun w => outs.flatten.contains w || after w == before w
#eval say "C68_refused" <| let c := circ 1 [2, 1] [1] 2; isThrow (evaluate 0 ⟨9, []⟩ c [[0, 1]] [[3]]) && isThrow (evaluate 0 ⟨9, []⟩ c [[0], [1, 2]] [[3]]) &&
  isThrow (evaluate 0 ⟨9, []⟩ c [[0, 1], [2]] [[3], [4]]) && isThrow (evaluate 0 ⟨9, []⟩ c [[0, 1], [2]] [[3, 4]]) && isThrow (evaluate 0 ⟨9, []⟩ c [[0, 1], [2, 3]] [[4]])

/-! ## The filter -/
open SecJoin.WhereT
def mat (s n c m : Nat) : List Row := (List.range n).map fun i => (List.range c).map fun j => BitVec.ofNat 8 (rnd (s * 7919 + i * 131 + j) m)
def tab (s n : Nat) (ws : List Nat) : Table := ⟨(List.range n).map fun i => BitVec.ofNat 8 (rnd (s * 31 + i) 2),
  ws.zipIdx.map fun (w, j) => ⟨⟨[BitVec.ofNat 8 (97 + j)], .int, w⟩, ⟨w, (w + 7) / 8, mat (s + j) n ((w + 7) / 8) 256⟩⟩⟩
def fl (t0 t1 : Table) (i : Nat) : Nat := (t0.isActive.getD i 9 ^^^ t1.isActive.getD i 9).toNat
def bitOf (t : Table) (k i j : Nat) : Bool := ((((t.cols.getD k ⟨⟨[], .int, 0⟩, ⟨0, 0, []⟩⟩).data.rows.getD i []).getD (j / 8) 0)).getLsbD (j % 8)
#eval say "C36_filter" <| (List.range 12).all fun s => [[2, 1], [9], [3, 8, 1]].all fun ws => let n := 1 + s; let c := circ s ws [1] 4; let t0 := tab s n ws; let t1 := tab (s + 50) n ws
  okAnd (init (rnd s 7) [] n t0.getColumnInfo (List.range ws.length) c) fun w => okAnd (whereBoth w t0 t1 (fun i j => rnd (i * 9 + j) 2 == 1) (fun i => rnd (s + i) 2 == 1)) fun (u0, u1) =>
    u0.cols == t0.cols && u1.cols == t1.cols && u0.isActive.length == n && u1.isActive.length == n && (List.range n).all fun i =>
      let row := ws.zipIdx.map fun (b, k) => (List.range b).map fun j => bitOf t0 k i j ^^ bitOf t1 k i j
      fl u0 u1 i == if fl t0 t1 i == 1 && c.eval row (fun _ => false) == [[true]] then 1 else 0
#eval say "C36_refused" <| let c := circ 3 [2, 1] [1] 2; let cs : List ColumnInfo := [⟨[97], .int, 2⟩, ⟨[98], .int, 1⟩, ⟨[99], .int, 3⟩]
  isThrow (init 0 [] 3 cs [0] c) && isThrow (init 0 [] 3 cs [0, 2] c) && isThrow (init 0 [] 3 cs [1, 0] c) && isThrow (init 0 [] 3 cs [0, 3] c) && isThrow (init 0 [] 3 cs [0, 1, 2] c) &&
  isThrow (init 0 [] 3 cs [0, 1] (circ 3 [2, 1] [1, 1] 2)) && isThrow (init 0 [] 3 cs [0, 1] (circ 3 [2, 1] [2] 2))
#eval say "C36_columns_false" <| let c := circ 3 [2, 1] [1] 2; let t := tab 1 3 [2, 1, 3]; okAnd (init 0 [] 3 t.getColumnInfo [0, 1] c) fun w => isThrow (whereBoth w t t (fun _ _ => false) fun _ => false) &&
  (let t := tab 1 3 [1, 2]; okAnd (init 0 [] 3 t.getColumnInfo [1, 0] c) fun w => isThrow (whereBoth w t t (fun _ _ => false) fun _ => false))
#eval say "C36_again_false" <| let c := circ 3 [2, 1] [1] 2; let t := tab 1 3 [2, 1]; okAnd (init 0 [] 3 t.getColumnInfo [0, 1] c) fun w =>
  okAnd (init 0 w.columns 3 t.getColumnInfo [0, 1] c) fun w => isThrow (whereBoth w t t (fun _ _ => false) fun _ => false)
#eval say "C36_rows" <| let c := circ 3 [2, 1] [1] 2; let t := tab 1 3 [2, 1]; okAnd (init 0 [] 4 t.getColumnInfo [0, 1] c) fun w => isThrow (whereBoth w t t (fun _ _ => false) fun _ => false)

/-! ## Removal of inactive rows -/
open SecJoin.Extract
def pc (s n b : Nat) : Res (ComposedPerm × ComposedPerm) :=
  ComposedPerm.genPerm ⟨rperm s n⟩ (fun i => rnd (i + s) (2 ^ 32)) b (mat (s + 1) n (16 * ((b + 15) / 16)) 256) (mat (s + 2) n (16 * ((b + 15) / 16)) 256)
    (mat (s + 3) n (16 * ((b + 15) / 16)) 256) (mat (s + 4) n (16 * ((b + 15) / 16)) 256)
def rowOf (t0 t1 : Table) (i : Nat) : List Row := List.zipWith (fun (a b : Column) => List.zipWith (· ^^^ ·) (a.data.rows.getD i []) (b.data.rows.getD i [])) t0.cols t1.cols
def out1 : Table := ⟨[1, 1], [⟨⟨[98], .int, 32⟩, ⟨32, 4, [[1, 2, 3, 4], [1, 2, 3, 4]]⟩⟩]⟩
#eval say "C35_extract" <| (List.range 12).all fun s => [[2, 9], [8], [3, 8, 17], [64, 56]].all fun ws => let n := 1 + s; let t0 := tab s n ws; let t1 := tab (s + 50) n ws
  okAnd (pc s n (1 + infoBytes t0.getColumnInfo)) fun (p0, p1) => okAnd (applyTable n p0 p1 t0 t1 ⟨[], []⟩ ⟨[], []⟩) fun (u0, u1) =>
    u0.isActive == [] && u1.isActive == [] && u0.getColumnInfo == t0.getColumnInfo && u1.getColumnInfo == t0.getColumnInfo &&
    (u0.cols ++ u1.cols).all (fun c => c.data.bits == c.info.bits && c.data.cols == (c.info.bits + 7) / 8 && c.data.rows.all fun r => r.length == c.data.cols) &&
    u0.cols.all (fun c => c.data.rows.length == u0.rows) && u1.cols.all (fun c => c.data.rows.length == u0.rows) &&
    ((List.range u0.rows).map (rowOf u0 u1)) == (((rperm s n).filter fun i => fl t0 t1 i == 1).map (rowOf t0 t1))
#eval say "C35_refused" <| let t := tab 1 3 [8, 9]; okAnd (pc 1 3 16) fun (p0, p1) => isThrow (applyTable 4 p0 p1 t t ⟨[], []⟩ ⟨[], []⟩) &&
  isThrow (applyTable 3 p0 p1 ⟨[1, 1], t.cols⟩ t ⟨[], []⟩ ⟨[], []⟩) && isThrow (applyTable 3 p0 p1 t ⟨[], t.cols⟩ ⟨[], []⟩ ⟨[], []⟩) &&
  isThrow (applyTable 3 p0 p1 (tab 1 3 [8, 120]) (tab 1 3 [8, 120]) ⟨[], []⟩ ⟨[], []⟩)
#eval say "C35_budget" <| [[8], [120], [128], [5, 64], [256], [250, 3]].all fun ws => let t := tab 1 3 ws; let b := infoBytes t.getColumnInfo
  okAnd (pc 1 3 (budget b)) fun (p0, p1) => isThrow (applyTable 3 p0 p1 t t ⟨[], []⟩ ⟨[], []⟩) == (b % 16 == 0)
#eval say "C35_stale" <| let t := tab 1 3 [8]; okAnd (pc 1 3 16) fun (p0, p1) => okAnd (applyTable 3 p0 p1 t ⟨[0, 0, 0], t.cols⟩ out1 out1) fun (u0, u1) =>
  u0.getColumnInfo == out1.getColumnInfo && u1.getColumnInfo == out1.getColumnInfo && u0.cols.map (fun c => c.data.bits) == [8]

/-! ## The filter with removal -/
#eval say "C36_remove" <| (List.range 12).all fun s => [[2, 1], [9], [3, 8, 1], [64, 56], [70, 50]].all fun ws => let n := 1 + s; let c := circ s ws [1] 4; let t0 := tab s n ws; let t1 := tab (s + 50) n ws
  okAnd (initRemove (rnd s 7) [] n t0.getColumnInfo (List.range ws.length) c) fun (w, b) => okAnd (pc s n b) fun (p0, p1) =>
    let v := fun i j => rnd (i * 9 + j) 2 == 1; let r := fun i => rnd (s + i) 2 == 1
    b == 1 + (ws.map fun x => (x + 7) / 8).sum &&
    okAnd (whereRemove w t0 t1 v r p0 p1) fun (u0, u1) =>
    let keep := (List.range n).filter fun i =>
      let row := ws.zipIdx.map fun (b, k) => (List.range b).map fun j => bitOf t0 k i j ^^ bitOf t1 k i j
      fl t0 t1 i == 1 && c.eval row (fun _ => false) == [[true]]
    u0.isActive == [] && u1.isActive == [] && u0.getColumnInfo == t0.getColumnInfo && u1.getColumnInfo == t0.getColumnInfo &&
    (List.isPerm ((List.range u0.rows).map (rowOf u0 u1)) (keep.map (rowOf t0 t1)))
#eval say "C36_remove_init_false" <| let c := circ 3 [2, 2] [1] 2; let t := tab 1 3 [2]; isUb (initRemove 0 [] 3 t.getColumnInfo [0, 0] c) && !isUb (init 0 [] 3 t.getColumnInfo [0, 0] c)
#eval say "C36_remove_empty_false" <| let c := circ 3 [2, 1] [1] 2; let t := tab 1 0 [2, 1]; okAnd (initRemove 0 [] 0 t.getColumnInfo [0, 1] c) fun (w, _) =>
  okAnd (whereBoth w t t (fun _ _ => false) fun _ => false) (fun _ => true) && okAnd (pc 1 0 2) fun (p0, p1) => isThrow (whereRemove w t t (fun _ _ => false) (fun _ => false) p0 p1)

end SecJoin.Checks.Where
