import Verif.Prf.Sample
import Verif.Prf.AltMod
import Verif.Checks.Util
/-!
# Tests of C47 to C54 and C62
-/
namespace SecJoin.Checks.Prf
open SecJoin.Mod3 (Block Mem)

/-! ## Digits -/

def blk (s : Nat) : Block := .ofNat 128 (rnd (2 * s) (2 ^ 64) * 2 ^ 64 + rnd (2 * s + 1) (2 ^ 64))
def trit (a b : Block) (p : Nat) : Nat := 2 * (a.getLsbD p).toNat + (b.getLsbD p).toNat
def bit (a : Block) (p : Nat) : Nat := (a.getLsbD p).toNat
def ps := List.range 128
def valid (z : Block × Block) : Bool := z.1 &&& z.2 == 0
def digitsOf (f : Nat → Nat) : Block × Block := (F2.mkBlock fun p => f p / 2 == 1, F2.mkBlock fun p => f p % 2 == 1)
def rd3 (s : Nat) : Block × Block := let a := blk (3 * s); let b := blk (3 * s + 1); let c := blk (3 * s + 2)
  let l := (a &&& ~~~b) ||| (a &&& b &&& c); (b &&& ~~~l, l)
def holds (z : Block × Block) (f : Nat → Nat) : Bool := ps.all fun p => trit z.1 z.2 p == f p % 3

#eval say "C47_add" <| (List.range 3).all fun s => let x := rd3 s; let y := rd3 (s + 9)
  holds (Mod3.add x.1 x.2 y.1 y.2) fun p => trit x.1 x.2 p + trit y.1 y.2 p
#eval say "C47_sub" <| (List.range 3).all fun s => let x := rd3 s; let y := rd3 (s + 9)
  holds (Mod3.sub x.1 x.2 y.1 y.2) fun p => trit x.1 x.2 p + 3 - trit y.1 y.2 p
#eval say "C47_addBit" <| (List.range 3).all fun s => let x := rd3 s; let y := blk s
  holds (Mod3.addBit x.1 x.2 y) fun p => trit x.1 x.2 p + bit y p
#eval say "C47_subBit" <| (List.range 3).all fun s => let x := rd3 s; let y := blk s
  holds (Mod3.subBit x.1 x.2 y) fun p => trit x.1 x.2 p + 3 - bit y p
#eval say "C47_incBit" <| (List.range 3).all fun s => let x := rd3 s; let y := blk s
  holds (Mod3.incBit x.1 x.2 y) fun p => trit x.1 x.2 p + bit y p

/-- Digits at 0/10 and 20/30, results at 40/50. -/
def cells : Array Block := ((List.range 70).map fun a => if a < 20 then (if a < 10 then (rd3 a).1 else (rd3 (a - 10)).2)
  else if a < 40 then (if a < 30 then (rd3 a).1 else (rd3 (a - 10)).2) else blk a).toArray
def mem : Mem := fun a => cells.getD a 0
def span (n z1 z0 : Nat) (m : Mem) (f : Nat → Nat → Nat) : Bool :=
  ((List.range n).all fun i => holds (m (z1 + i), m (z0 + i)) (f i)) &&
  (List.range 70).all fun a => (z1 ≤ a && a < z1 + n) || (z0 ≤ a && a < z0 + n) || m a == mem a
def X (i p : Nat) := trit (mem i) (mem (10 + i)) p
def Y (i p : Nat) := trit (mem (20 + i)) (mem (30 + i)) p
def B (i p : Nat) := bit (mem (60 + i)) p

#eval say "C47_addSpan" <| [0, 1, 5].all fun n => span n 40 50 (Mod3.addSpan n 40 50 0 10 20 30 mem) (fun i p => X i p + Y i p) &&
  span n 0 10 (Mod3.addSpan n 0 10 0 10 20 30 mem) (fun i p => X i p + Y i p)
#eval say "C47_subSpan" <| [0, 1, 5].all fun n => span n 40 50 (Mod3.subSpan n 40 50 0 10 20 30 mem) (fun i p => X i p + 3 - Y i p)
#eval say "C47_addBitSpan" <| [0, 1, 5].all fun n => span n 40 50 (Mod3.addBitSpan n 40 50 0 10 60 mem) (fun i p => X i p + B i p)
#eval say "C47_subBitSpan" <| [0, 1, 5].all fun n => span n 40 50 (Mod3.subBitSpan n 40 50 0 10 60 mem) (fun i p => X i p + 3 - B i p)
#eval say "C47_incSpan" <| [0, 1, 5].all fun n => span n 0 10 (Mod3.incSpan n 0 10 20 30 mem) (fun i p => X i p + Y i p)
#eval say "C47_incBitSpan" <| [0, 1, 5].all fun n => span n 0 10 (Mod3.incBitSpan n 0 10 60 mem) (fun i p => X i p + B i p)

/-! ## Samples -/

#eval say "C48_tables" <| (List.range 256).all fun b => Mod3.tabV.getD b 0 == (if b < 243 then 5 else 0) &&
  (List.range 9).all (fun j => 2 * ((Mod3.tabMsb.getD b 0).testBit j).toNat + ((Mod3.tabLsb.getD b 0).testBit j).toNat ==
    (if b < 243 && j < 5 then b / 3 ^ j % 3 else 0)) &&
  Mod3.tab.getD b 0 == (if b < 243 then 2 ^ 16 else 0) + 2 ^ 8 * Mod3.tabMsb.getD b 0 + Mod3.tabLsb.getD b 0

/-- Draws with many bytes that are no samples. -/
def draw (s g r w : Nat) : BitVec 32 := .ofNat 32 (((List.range 4).map fun j => let x := rnd (((s * 10 + g) * 10 + r) * 100 + w * 10 + j) 400
  (if x < 256 then x else 243 + x % 13) * 256 ^ j).sum)
def extra (s n : Nat) : List (BitVec 8) := (List.range n).map fun i => .ofNat 8 (235 + rnd (s * 77777 + i) 21)

/-- The samples computed byte by byte. -/
def lookup (s n : Nat) (ex : List (BitVec 8)) : Option (List Nat) := Id.run do
  let mut ex := ex.map (·.toNat)
  let mut out : List Nat := []
  for g in List.range ((n + 7) / 8) do
    for l in List.range 32 do
      let mut smp := ((List.range 8).map fun r => (draw s g r (l % 8)).toNat / 256 ^ (l / 8) % 256).filter (· < 243)
      while smp.length < 7 do
        match ex with
        | [] => return none
        | b :: r =>
          ex := r
          if b < 243 then smp := smp ++ [b]
      let sm := smp
      out := out ++ (List.range 32).map fun p => sm.getD (sm.length - 1 - p / 5) 0 / 3 ^ (p % 5) % 3
  return some (out.take (128 * n))

#eval say "C48_lookup" <| [0, 1, 8, 9].all fun n => [1, 2].all fun s => let ex := extra s 900
  okAnd (Mod3.sampleLookup (draw s) n n ex) fun r => match r, lookup s n ex with
    | some o, some l => o.length == n && (List.range n).all fun i => let z := o.getD i 0; holds z (fun p => l.getD (128 * i + p) 3) && valid z
    | _, _ => false
#eval say "C48_lookup_throws" <| [(1, 2), (0, 1), (8, 9)].all fun (n, m) => isThrow (Mod3.sampleLookup (draw 1) n m (extra 1 900))

def top (x : Block) : Option Nat := ((List.range 64).reverse.map fun i => 2 * (x.getLsbD (64 + i)).toNat + (x.getLsbD i).toNat).find? (· != 3)
def seeds (s n : Nat) : List Block := (List.range (128 * n)).map fun i => match i % 4 with
  | 0 => blk (s * 1000 + i)
  | 1 => BitVec.allOnes 128 ^^^ BitVec.twoPow 128 (rnd i 128)
  | 2 => BitVec.allOnes 128 ^^^ BitVec.twoPow 128 (rnd i 64) ^^^ BitVec.twoPow 128 (64 + rnd (i + 1) 64)
  | _ => blk (s * 2000 + i) ||| (BitVec.allOnes 128 <<< 96) ||| (BitVec.allOnes 128 >>> 70 <<< 30)
#eval say "C48_seeds" <| [0, 1, 2].all fun n => let sd := seeds 3 n; okAnd (Mod3.sampleMod3 sd n n) fun out => out.length == 16 * n &&
  (List.range sd.length).all fun t => let b := out.getD (t / 8) 0
    top (sd.getD t 0) == some (2 * (b.1.getLsbD (t % 8)).toNat + (b.2.getLsbD (t % 8)).toNat)
#eval say "C48_seeds_throws" <| isThrow (Mod3.sampleMod3 (seeds 1 1) 1 2) && isThrow (Mod3.sampleMod3 (seeds 1 1) 2 2) &&
  isThrow (Mod3.sampleMod3 (seeds 1 2) 1 1) && isThrow (Mod3.sampleMod3 (seeds 1 2) 2 1)
#eval say "C48_false" <| [0, 5, 127].all fun i => isUb (Mod3.sampleMod3 ((seeds 1 1).set i (BitVec.allOnes 128)) 1 1)

/-! ## The binary code -/

def bmat (s r c : Nat) : List (List Byte) := (List.range r).map fun i => (List.range c).map fun j => .ofNat 8 (rnd ((s * 1000 + i) * 20 + j) 256)
def gbit (G : List (List Byte)) (i p : Nat) : Bool := ((G.getD i []).getD (p / 8) 0).getLsbD (p % 8)
/-- The product with a matrix. -/
def mulG (G : List (List Byte)) (x : Block) : Block := F2.mkBlock fun p => ps.foldl (fun a i => a ^^ (x.getLsbD i && gbit G i p)) false
def inputs (s n : Nat) : List Block := (List.range n).map fun i => blk (s * 500 + i)
def tables (G : List (List Byte)) (c : Nat) := (F2.init G c).toOption.getD []

#eval say "C49_encode" <| [1, 7, 16].all fun c => let G := bmat c 128 c; okAnd (F2.init G c) fun t => let xs := [0, 1, BitVec.allOnes 128] ++ inputs c 4
  xs.all (fun x => F2.encode t x == mulG G x) && F2.encodeN t xs == xs.map (F2.encode t)
#eval say "C49_tables" <| [1, 7, 16].all fun c => okAnd (F2.init (bmat c 128 c) c) fun t => t.length == 16 && t.all fun T => T.length == 256 && T.all (·.length == 16)
#eval say "C49_linear" <| let t := tables (bmat 3 128 16) 16; [1, 2].all fun s => let x := blk s; let y := blk (s + 5)
  F2.encode t (x ^^^ y) == F2.encode t x ^^^ F2.encode t y
#eval say "C49_init_throws" <| [(128, 17), (128, 0), (64, 16), (192, 4), (0, 3), (576, 2)].all fun (r, c) => isThrow (F2.init (bmat 1 r c) c)
#eval say "C49_rows_ub" <| [(121, 1), (127, 16)].all fun (r, c) => isUb (F2.init (bmat 1 r c) c)

/-! ## The ternary code -/

def codes : List F3.Code := [⟨2, 4, [[2, 0, 3, 1], [0, 3, 1, 2]]⟩, ⟨3, 7, [rperm 1 7, rperm 2 7, rperm 3 7]⟩, ⟨1, 2, [[1, 0]]⟩, ⟨0, 1, [[0]]⟩, ⟨5, 8, [rperm 4 8]⟩]
def dvec (s k : Nat) : List Nat := (List.range k).map fun i => rnd (s * 100 + i) 3
def dot (a b : List Nat) : Nat := (List.zipWith (· * ·) a b).sum % 3
/-- The code as sums along permutations. -/
def codeSpec (c : F3.Code) (x : List Nat) : List Nat := Id.run do
  let mut x := x
  for p in List.range c.k :: c.perms.dropLast do
    let y := x
    x := (List.range c.k).map fun i => ((p.take (p.idxOf i + 1)).map fun j => y.getD j 0).sum % 3
  let z := x
  return ((c.perms.getLastD []).take c.n).map fun j => z.getD j 0

#eval say "C50_init" <| [(4, 3, 2, 1), (7, 2, 0, 3), (9, 5, 0, 8), (5, 4, 1, 1)].all (fun (k, n, p, l) => okAnd (F3.init k n p l (fun i => rperm i k)) fun c =>
    c.n == n && c.k == k && c.perms != [] && c.perms.all fun p => p.length == k && (List.range k).all p.contains) &&
  [(4, 4, 2, 1), (3, 5, 1, 2), (0, 0, 1, 0)].all (fun (k, n, p, l) => isThrow (F3.init k n p l (fun i => rperm i k)))
#eval say "C50_code" <| codes.all fun c => (List.range 4).all fun s => let x := dvec s c.k; okAnd (F3.encode c x c.n) fun y => y.2 == codeSpec c x
#eval say "C50_matrix" <| codes.all fun c => (List.range 4).all fun s => let x := dvec s c.k
  okAnd (F3.encode c x c.n) fun y => okAnd (F3.getMatrix c) fun M => y.2.length == c.n && M.length == c.n && M.all (·.length == c.k) &&
    (List.range c.n).all fun i => y.2.getD i 0 == dot (M.getD i []) x && y.2.getD i 0 < 3
#eval say "C50_additive" <| codes.all fun c => (List.range 4).all fun s => let x := dvec s c.k; let y := dvec (s + 9) c.k
  okAnd (F3.encode c x c.n) fun a => okAnd (F3.encode c y c.n) fun b => okAnd (F3.encode c (List.zipWith (fun a b => (a + b) % 3) x y) c.n) fun z =>
    z.2 == List.zipWith (fun a b => (a + b) % 3) a.2 b.2
#eval say "C50_throws" <| codes.all fun c => isThrow (F3.encode c (dvec 1 (c.k + 1)) c.n) && isThrow (F3.encode c (dvec 1 (c.k - 1)) c.n) &&
  isThrow (F3.encode c (dvec 1 c.k) (c.n + 1)) && isThrow (F3.encode c (dvec 1 c.k) c.k)

def dmat (s k len : Nat) : List (List (Block × Block)) := (List.range k).map fun i => (List.range len).map fun j => rd3 ((s * 50 + i) * 50 + j)
def junk (k len : Nat) : List (List (Block × Block)) := (List.range k).map fun i => (List.range len).map fun j => (blk (i * 50 + j), blk (i * 50 + j + 999))
def digits (st : List (List (Block × Block))) (j p : Nat) : List Nat := st.map fun r => let z := r.getD j 0; trit z.1 z.2 p
#eval say "C50_slices" <| codes.all fun c => [(1, 1), (3, 2), (5, 2), (4, 4), (3, 7), (0, 1)].all fun (len, b) => let st := dmat len c.k len
  okAnd (F3.encodeSlices c len st (junk c.n len) b) fun r => r.2.length == c.n && r.2.all (fun x => x.length == len && x.all valid) &&
    (List.range len).all fun j => [0, 1, 77, 127].all fun p => okAnd (F3.encode c (digits st j p) c.n) fun y => digits r.2 j p == y.2

/-! ## Conversion to digits -/

open SecJoin.AltMod

def cut (l : List α) : List Nat → List (List α)
  | [] => []
  | k :: ks => l.take k :: cut (l.drop k) ks

def tritOts (s n : Nat) : List (TritS × TritR) := (List.range n).map fun i => let a := rd3 (s * 300 + i); let b := rd3 (s * 300 + i + 150); let c := blk (s * 300 + i)
  (⟨a.2, a.1, b.2, b.1⟩, ⟨c, (c &&& b.2) ||| (~~~c &&& a.2), (c &&& b.1) ||| (~~~c &&& a.1)⟩)

#eval say "C51_convert" <| [[3], [1, 2], [2, 0, 1, 4], [1, 1], []].all fun cs => let n := cs.sum; let o := tritOts n n
  let x := inputs (n + 3) n; let y := inputs (n + 4) n
  okAnd (convert x y (cut (o.map (·.1)) cs) (cut (o.map (·.2)) cs)) fun r => r.1.length == n && r.2.length == n && (r.1 ++ r.2).all valid &&
    (List.range n).all fun i => let a := r.1.getD i 0; let b := r.2.getD i 0
      ps.all fun p => (trit a.1 a.2 p + trit b.1 b.2 p) % 3 == bit (x.getD i 0 ^^^ y.getD i 0) p
#eval say "C51_send_refuses" <| let S := cut ((tritOts 1 4).map (·.1)) [1, 3]; isThrow (cvSendCheck (inputs 1 5) 5 5 S) && isThrow (cvSendCheck (inputs 1 4) 5 4 S) &&
  isThrow (cvSendCheck (inputs 1 4) 4 3 S) && isThrow (cvSendCheck (inputs 1 8) 8 8 S)
def segR (n : Nat) := cut ((tritOts 1 n).map (·.2)) [n]
def dl (n : Nat) : List (Block × Block) := (List.range n).map rd3
#eval say "C62_partial" <| isThrow (cvRecvReturns (inputs 1 2) (segR 2) (dl 3) (.ok [])) && isThrow (cvRecvReturns (inputs 1 2) [] (dl 2) (.ok [])) &&
  isThrow (cvRecvReturns (inputs 1 130) (segR 1) (dl 130) (.ok []))
#eval say "C62_false" <| okAnd (cvRecvReturns (inputs 1 2) (segR 1) (dl 2) (.ok [])) (· == dl 2) &&
  okAnd (cvRecvReturns (inputs 1 2) (segR 3) (dl 2) (.error .throw)) (· == dl 2)
#eval say "C62_false_body" <| okAnd (cvRecvReturns (inputs 1 2) (segR 2) (dl 2) (.error .throw)) (· == dl 2)

/-! ## Key multiplication -/

def prg : Prg where
  sample g n := ((List.range n).map fun j => rd3 (g.key.toNat % 1000 * 7919 + g.idx + j), { g with idx := g.idx + n + 1 })
  str k i := blk (k.toNat % 1000 * 104729 + i)
def gens (s n : Nat) : List (Gen × Gen) := (List.range n).map fun i => (⟨blk (s * 40 + i), i⟩, ⟨blk (s * 40 + i + 20), i + 3⟩)
def chosen (k : List Bool) (g : List (Gen × Gen)) : List Gen := List.zipWith (fun b (g : Gen × Gen) => if b then g.2 else g.1) k g
def sameG (a b : List Gen) : Bool := a.map (fun g => (g.key, g.idx)) == b.map (fun g => (g.key, g.idx))
def bools (s n : Nat) : List Bool := (List.range n).map fun i => rnd (s * 600 + i) 2 == 1
def xrow (s n : Nat) : List (Option Block × Block) := (List.range n).map fun j => if s % 2 == 0 then (none, blk (s * 9 + j)) else
  let z := rd3 (s * 9 + j); (some z.1, z.2)
def xdig (x : Option Block × Block) (p : Nat) : Nat := trit (x.1.getD 0) x.2 p
#eval say "C52_keyMult" <| [(0, 1), (8, 1), (8, 3), (4, 0)].all fun (r, n) => let k0 := (List.range r).map (· / 2 % 2 == 1); let k1 := (List.range r).map (· / 4 % 2 == 1)
  let gs := gens 3 r
  let x := (List.range r).map fun i => xrow i n
  okAnd (keyMult prg n k0 gs x k1 (chosen k1 gs)) fun (a, gs', b, hs') => sameG hs' (chosen k1 gs') && a.length == r && b.length == r &&
    okAnd (keyMult prg n k0 gs' x k1 hs') fun (a', _, b', _) =>
    [(a, b), (a', b')].all fun (a, b) =>
    (List.range r).all fun i => (a.getD i []).length == n && (b.getD i []).length == n && (List.range n).all fun j =>
      let u := (a.getD i []).getD j 0; let v := (b.getD i []).getD j 0
      valid u && valid v && ps.all fun p => (trit u.1 u.2 p + trit v.1 v.2 p) % 3 ==
        if (k0.getD i false ^^ k1.getD i false) then xdig ((x.getD i []).getD j (none, 0)) p else 0

/-- The messages of several runs for one key bit. -/
def sent (G : Prg) : List (Bool × Gen × List (Option Block × Block)) → Gen → List Block
  | [], _ => []
  | (k, g0, x) :: rs, g =>
    let r := kmSendRow G k g0 g x
    r.1.1 ++ r.1.2 ++ sent G rs r.2.2.2
#eval say "C52_pads" <| let runs := [(true, ⟨1, 0⟩, xrow 1 3), (false, ⟨2, 7⟩, xrow 2 2), (true, ⟨3, 9⟩, xrow 4 1)]; let g : Gen := ⟨9, 4⟩
  let plain := sent { prg with str := fun _ _ => 0 } runs g
  plain.length == 12 && sent prg runs g == List.zipWith (fun c j => c ^^^ prg.str 9 (4 + j)) plain (List.range 12)

/-! ## Reduction modulo two -/

def oles (s n : Nat) : List (Ole × Ole) := (List.range n).map fun i => let a := blk (s * 3000 + i); let b := blk (s * 3000 + i + 700); let c := blk (s * 3000 + i + 1400)
  (⟨a, c⟩, ⟨b, c ^^^ (a &&& b)⟩)
def f4s (s n : Nat) : List (F4S × F4R) := (List.range n).map fun i => let o j := blk (s * 4000 + i * 7 + j); let l := o 4; let m := o 5
  (⟨o 0, o 1, o 2, o 3⟩, ⟨l, m, (m &&& ((l &&& o 3) ||| (~~~l &&& o 2))) ||| (~~~m &&& ((l &&& o 1) ||| (~~~l &&& o 0)))⟩)
def isMod2 (v u : List (Block × Block)) (z : List Block × List Block) : Bool := z.1.length == u.length && z.2.length == u.length &&
  (List.range u.length).all fun i => let a := v.getD i 0; let b := u.getD i 0
    ps.all fun p => bit (z.1.getD i 0 ^^^ z.2.getD i 0) p == if (trit a.1 a.2 p + trit b.1 b.2 p) % 3 == 1 then 1 else 0
def vs (s n : Nat) : List (Block × Block) := (List.range n).map fun i => rd3 (s * 77 + i)
#eval say "C53_ole_partial" <| [[6], [2, 4], [2, 0, 4, 2], []].all fun cs => let n := cs.sum; let o := oles n n
  okAnd (mod2Ole (vs 1 (n / 2)) (vs 2 (n / 2)) (cut (o.map (·.1)) cs) (cut (o.map (·.2)) cs)) (isMod2 (vs 1 (n / 2)) (vs 2 (n / 2)))
#eval say "C53_f4" <| [[3], [1, 2], [2, 0, 1], []].all fun cs => [0, 1].all fun d => let n := cs.sum; let o := f4s n n; let m := n - d
  okAnd (mod2F4 (vs 1 m) (vs 2 m) (cut (o.map (·.1)) cs) (cut (o.map (·.2)) cs)) (isMod2 (vs 1 m) (vs 2 m))
#eval say "C53_ole_diverges" <| [[3, 2], [1, 4], [5, 5]].all fun cs => let n := cs.sum; let o := oles n n; let m := cs.headD 0 / 2 + 1
  isDiv (mod2Ole (vs 1 m) (vs 2 m) (cut (o.map (·.1)) cs) (cut (o.map (·.2)) cs))

end SecJoin.Checks.Prf
