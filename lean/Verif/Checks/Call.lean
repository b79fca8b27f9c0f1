import Verif.Sort.RadixGmw
import Verif.TableOps.WhereGmw
import Verif.Checks.Util
/-! Instances of C19, C20 and C36 with the circuits evaluated by GMW. -/
namespace SecJoin.Checks.Call
open SecJoin SecJoin.Gmw.Wires

def blk (s : Nat) : Gmw.Block := BitVec.ofNat 128 (rnd s (2 ^ 64) + 2 ^ 64 * rnd (s + 7777) (2 ^ 64))
def oles (s n : Nat) (c : Cir) : List (List Gmw.Block × List Gmw.Block) × List (List Gmw.Block × List Gmw.Block) :=
  let m := Gmw.numOles n c.levels / 128
  let a := (List.range m).map fun i => blk (s + 4 * i)
  let b := (List.range m).map fun i => blk (s + 4 * i + 1)
  let x := (List.range m).map fun i => blk (s + 4 * i + 2)
  let y := (List.range m).map fun i => (blk (s + 4 * i) &&& blk (s + 4 * i + 1)) ^^^ blk (s + 4 * i + 2)
  ([(a, x)], [(b, y)])
def env (s n : Nat) (c : Cir) : Env := ⟨fun i j => blk (s + i * 31 + j), fun i j => blk (s + 99 + i * 31 + j), fun i j => rnd (s + i * 5 + j) 2 == 1, fun i j => rnd (s + i * 3 + j) 2 == 0, (oles s n c).1, (oles s n c).2⟩
def hot (L : Nat) : Cir :=
  ⟨L + 2 ^ L + 2 ^ L, [List.range L], [List.range' L (2 ^ L)],
    ([⟨0, 0, Radix.nodeWire L 0, .nxor⟩] : List Gmw.Gate) :: (Radix.oneHotOps L).map fun o => match o with | .gate g => [g] | .inv w => [⟨w, w, w, .nor⟩]⟩
def add (w : Nat) : Cir :=
  ⟨4 * w + 3, [List.range w, List.range' w w], [List.range' (2 * w) w],
    ([⟨0, 0, 3 * w, .xor⟩] : List Gmw.Gate) :: (List.range w).flatMap fun j => ([⟨j, 3 * w + j, 4 * w + 1, .xor⟩, ⟨w + j, 3 * w + j, 4 * w + 2, .xor⟩, ⟨4 * w + 1, w + j, 2 * w + j, .xor⟩,
      ⟨4 * w + 1, 4 * w + 2, 4 * w + 1, .and⟩, ⟨4 * w + 1, 3 * w + j, 3 * w + j + 1, .xor⟩] : List Gmw.Gate).map fun g => [g]⟩
def byte (s i : Nat) : Byte := BitVec.ofNat 8 (rnd (s * 97 + i) 256)
def ots (s n : Nat) : List Radix.Ot := (List.range n).map fun i => ⟨BitVec.ofNat 32 (rnd (s + 2 * i) (2 ^ 32)), BitVec.ofNat 32 (rnd (s + 2 * i + 1) (2 ^ 32)), rnd (s + i) 2 == 1⟩
def round (s n L : Nat) : Radix.RoundEnv := ⟨env s n (hot L), [ots s (n * 2 ^ L)], [ots (s + 500) (n * 2 ^ L)], [ots (s + 900) (n * 2 ^ L)], env (s + 40) n (add (Radix.sumBits n))⟩
def pos (k : List Nat) (i : Nat) : Nat := ((List.range k.length).filter fun a => k.getD a 0 < k.getD i 0 || (k.getD a 0 == k.getD i 0 && a < i)).length

#eval say "C19_gmw" <| (List.range 3).all fun s => [1, 2, 3].all fun L => [1, 3, 5].all fun n =>
  let k0 := (List.range n).map (byte s); let k1 := (List.range n).map (byte (s + 40))
  okAnd (Radix.genBitPermGmw (hot L) (add (Radix.sumBits n)) n L k0 k1 (round s n L)) fun (d0, d1) =>
    let k := List.zipWith (fun (a b : Byte) => (a ^^^ b).toNat % 2 ^ L) k0 k1
    (List.range n).all fun i => (d0.getD i 0 ^^^ d1.getD i 0).toNat == pos k i
#eval say "C20_gmw" <| (List.range 3).all fun s => [2, 3].all fun L => [2, 5].all fun n =>
  let m := fun s => (⟨L, 1, (List.range n).map fun i => [byte s i]⟩ : BinMatrix)
  okAnd (Radix.genPermGmw (hot L) (add (Radix.sumBits n)) n L L (m s) (m (s + 9)) (round s n L) []) fun (d0, d1) =>
    let k := (List.range n).map fun i => (byte s i ^^^ byte (s + 9) i).toNat % 2 ^ L
    (List.range n).all fun i => (d0.getD i 0 ^^^ d1.getD i 0).toNat == pos k i
#eval say "C19_sizes" <| isThrow (Radix.genBitPermGmw (hot 2) (add 2) 3 2 [1, 2] [1, 2, 3] (round 1 3 2)) && isThrow (Radix.genBitPermGmw (hot 2) (add 2) 3 9 [1, 2, 3] [1, 2, 3] (round 1 3 2))
#eval say "C20_sizes" <| let m := fun b => (⟨b, 1, [[1], [2]]⟩ : BinMatrix); isThrow (Radix.genPermGmw (hot 2) (add 1) 2 2 2 (m 2) (m 3) (round 1 2 2) []) && isThrow (Radix.genPermGmw (hot 2) (add 1) 3 2 2 (m 2) (m 2) (round 1 3 2) [])

def demo : Gmw.Circuit := ⟨[[0, 1], [2]], [[3]], 5, [⟨0, 1, 4, .and⟩, ⟨4, 2, 3, .xor⟩], fun _ => .plain⟩
def tab (s n : Nat) : Table := ⟨(List.range n).map fun i => BitVec.ofNat 8 (rnd (s * 61 + i) 2), [⟨⟨[97], .int, 2⟩, ⟨2, 1, (List.range n).map fun i => [byte s i]⟩⟩, ⟨⟨[98], .boolean, 1⟩, ⟨1, 1, (List.range n).map fun i => [byte (s + 3) i]⟩⟩]⟩
#eval say "C36_protocol" <| (List.range 6).all fun s => let n := 1 + s; let t0 := tab s n; let t1 := tab (s + 20) n
  okAnd (WhereT.init 7 [] n (t0.cols.map (·.info)) [0, 1] demo) fun w =>
    let lv := w.clause.gates.map fun g => [g]
    okAnd (WhereT.whereGmw (env s n ⟨w.clause.wireCount, w.clause.inputs, w.clause.outputs, lv⟩) w lv t0 t1) fun (u0, u1) =>
      let bit := fun k i j => ((((t0.cols.getD k ⟨⟨[], .int, 0⟩, ⟨0, 0, []⟩⟩).data.rows.getD i []).getD 0 0) ^^^ (((t1.cols.getD k ⟨⟨[], .int, 0⟩, ⟨0, 0, []⟩⟩).data.rows.getD i []).getD 0 0)).getLsbD j
      let fl := fun (a b : Table) i => (a.isActive.getD i 0 ^^^ b.isActive.getD i 0).toNat
      u0.cols == t0.cols && u1.cols == t1.cols && u0.isActive.length == n && u1.isActive.length == n &&
      (List.range n).all fun i => fl u0 u1 i == if fl t0 t1 i == 1 && ((bit 0 i 0 && bit 0 i 1) ^^ bit 1 i 0) then 1 else 0
def andNot : Gmw.Circuit := ⟨[[0], [1]], [[2]], 3, [⟨0, 1, 2, .nbAnd⟩], fun _ => .plain⟩
def tab2 (s n : Nat) : Table := ⟨(List.range n).map fun i => BitVec.ofNat 8 (rnd (s * 61 + i) 2), [⟨⟨[98], .int, 1⟩, ⟨1, 1, (List.range n).map fun i => [byte s i]⟩⟩, ⟨⟨[97], .int, 1⟩, ⟨1, 1, (List.range n).map fun i => [byte (s + 3) i]⟩⟩]⟩
#eval say "C36_order" <| (List.range 4).all fun s => let n := 2 + s; let t0 := tab2 s n; let t1 := tab2 (s + 20) n
  okAnd (WhereT.init 7 [] n [⟨[97], .int, 1⟩, ⟨[98], .int, 1⟩] [1, 0] andNot) fun w =>
    let lv := w.clause.gates.map fun g => [g]
    okAnd (WhereT.whereGmw (env s n ⟨w.clause.wireCount, w.clause.inputs, w.clause.outputs, lv⟩) w lv t0 t1) fun (u0, u1) =>
      let fl := fun (a b : Table) i => (a.isActive.getD i 0 ^^^ b.isActive.getD i 0).toNat
      (List.range n).all fun i => fl u0 u1 i == if fl t0 t1 i == 1 && ((byte (s + 3) i ^^^ byte (s + 23) i).getLsbD 0 && !(byte s i ^^^ byte (s + 20) i).getLsbD 0) then 1 else 0
#eval say "C36_sizes" <| okAnd (WhereT.init 7 [] 3 ((tab 1 3).cols.map (·.info)) [0, 1] demo) fun w =>
  let lv := w.clause.gates.map fun g => [g]; let E := env 1 3 ⟨w.clause.wireCount, w.clause.inputs, w.clause.outputs, lv⟩
  isThrow (WhereT.whereGmw E w lv (tab 1 4) (tab 2 3)) && isThrow (WhereT.whereGmw E w lv (tab 1 3) ⟨(tab 1 3).isActive, (tab 1 3).cols.take 1⟩) && isThrow (WhereT.whereGmw E w lv (tab 1 3) ⟨(tab 1 3).isActive, (tab 1 3).cols.reverse⟩)
end SecJoin.Checks.Call
