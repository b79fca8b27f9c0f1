import Verif.Hiding.Prf
import Verif.Checks.Util
/-!
# Tests of the transcripts of the conversions in the PRF protocol

The other party's part that shows the viewer the same for another input is computed here bit by bit.
-/
namespace SecJoin.Checks.HidingPrf
open SecJoin SecJoin.AltMod SecJoin.Checks

abbrev B := BitVec 128
def blk (s : Nat) : B := BitVec.ofNat 128 (rnd s (2 ^ 64) * 2 ^ 64 + rnd (s + 7777) (2 ^ 64))
def cut {α : Type} (l : List α) : List (List α) := [l.take 2, [], (l.drop 2).take 3, l.drop 5]
def n : Nat := 9

/-- A block of digits: high and low bits. -/
def dig (s : Nat) : B × B := let a := blk s; let b := blk (s + 1); (a &&& ~~~b, b &&& ~~~a)
def mk (f : Nat → Bool) : B := BitVec.ofNat 128 ((List.range 128).foldl (fun a p => a + if f p then 2 ^ p else 0) 0)
def val (d : B × B) (p : Nat) : Nat := 2 * (d.1.getLsbD p).toNat + (d.2.getLsbD p).toNat
def ofVal (f : Nat → Nat) : B × B := (mk fun p => f p % 3 == 2, mk fun p => f p % 3 == 1)
def sel (c a b : B) : B := (c &&& b) ^^^ (~~~c &&& a)

def tS (i : Nat) : TritS := let a := dig (1000 + 10 * i); let b := dig (2000 + 10 * i); ⟨a.2, a.1, b.2, b.1⟩
def tR (_ : Nat) (s : TritS) (c : B) : TritR := ⟨c, sel c s.l0 s.l1, sel c s.m0 s.m1⟩
def x0 : List B := (List.range n).map fun i => blk (3000 + i)
def x0' : List B := (List.range n).map fun i => blk (3100 + i)
def x1 : List B := (List.range n).map fun i => blk (3200 + i)
def x1' : List B := (List.range n).map fun i => blk (3300 + i)
def ss : List TritS := (List.range n).map tS
def rs : List TritR := ss.mapIdx fun i s => tR i s (blk (3400 + i))

#eval say "C85_convert_sender" <|
  let rs' := ss.mapIdx fun i s => tR i s (blk (3400 + i) ^^^ x1.getD i 0 ^^^ x1'.getD i 0)
  okAnd (convertView x0 x1 (cut ss) (cut rs)) fun v => okAnd (convertView x0 x1' (cut ss) (cut rs')) fun w =>
    v.1 == w.1 && v.2.1 == w.2.1 && v.2.2.1 == w.2.2.1 && v.1.flatten.length == n && v.2.1.flatten.length == n

#eval say "C85_convert_receiver" <|
  let ss' := ss.mapIdx fun i s =>
    let c := blk (3400 + i)
    let x := x1.getD i 0
    let e := fun p => let a := if (x0.getD i 0).getLsbD p then 2 else 1
                      let b := if (x0'.getD i 0).getLsbD p then 2 else 1
                      let d := a + 3 - b
                      if x.getLsbD p then d else 3 - d % 3
    let a := ofVal fun p => val (s.m0, s.l0) p + if c.getLsbD p then e p else 0
    let b := ofVal fun p => val (s.m1, s.l1) p + if c.getLsbD p then 0 else e p
    (⟨a.2, a.1, b.2, b.1⟩ : TritS)
  let rs' := ss'.mapIdx fun i s => tR i s (blk (3400 + i))
  okAnd (convertView x0 x1 (cut ss) (cut rs)) fun v =>
    (okAnd (convertView x0' x1 (cut ss') (cut rs)) fun w => v.1 == w.1 && v.2.1 == w.2.1 && v.2.2.2 == w.2.2.2) &&
      (rs'.map fun r => (r.l, r.m)) == rs.map fun r => (r.l, r.m)

#eval say "C85_convert_run" <|
  okAnd (convertView x0 x1 (cut ss) (cut rs)) fun v => okAnd (convert x0 x1 (cut ss) (cut rs)) fun w => v.2.2 == w

def oS (i : Nat) : Ole × Ole := (⟨blk (4000 + 4 * i), blk (4001 + 4 * i)⟩, ⟨blk (4002 + 4 * i), blk (4003 + 4 * i)⟩)
def oR (s : Ole × Ole) (a b : B) : Ole × Ole := (⟨a, s.1.add ^^^ (s.1.mult &&& a)⟩, ⟨b, s.2.add ^^^ (s.2.mult &&& b)⟩)
def flat2 (l : List (Ole × Ole)) : List Ole := l.flatMap fun p => [p.1, p.2]
def os : List (Ole × Ole) := (List.range n).map oS
def ors : List (Ole × Ole) := os.mapIdx fun i s => oR s (blk (4400 + i)) (blk (4500 + i))
def v : List (B × B) := (List.range n).map fun i => dig (5000 + 10 * i)
def v' : List (B × B) := (List.range n).map fun i => dig (5200 + 10 * i)
def u : List (B × B) := (List.range n).map fun i => dig (5400 + 10 * i)
def u' : List (B × B) := (List.range n).map fun i => dig (5600 + 10 * i)
def g (l : List (B × B)) (i : Nat) : B × B := l.getD i (0, 0)
def cut2 (l : List (Ole × Ole)) : List (List Ole) := (cut l).map flat2

#eval say "C85_ole_sender" <|
  let rs' := os.mapIdx fun i s => oR s (blk (4400 + i) ^^^ (g u i).2 ^^^ (g u' i).2) (blk (4500 + i) ^^^ (g u i).1 ^^^ (g u' i).1)
  okAnd (oleView v u (cut2 os) (cut2 ors)) fun a => okAnd (oleView v u' (cut2 os) (cut2 rs')) fun b =>
    a.1 == b.1 && a.2.1 == b.2.1 && a.2.2.1 == b.2.2.1 && a.1.flatten.length == n && a.2.1.flatten.length == n

#eval say "C85_ole_receiver" <|
  let os' := os.mapIdx fun i s =>
    let r := ors.getD i (⟨0, 0⟩, ⟨0, 0⟩)
    let a := s.1.mult ^^^ (g v i).1 ^^^ (g v' i).1
    let b := s.2.mult ^^^ (g v i).1 ^^^ (g v' i).1 ^^^ (g v i).2 ^^^ (g v' i).2
    ((⟨a, r.1.add ^^^ (a &&& r.1.mult)⟩, ⟨b, r.2.add ^^^ (b &&& r.2.mult)⟩) : Ole × Ole)
  okAnd (oleView v u (cut2 os) (cut2 ors)) fun a => okAnd (oleView v' u (cut2 os') (cut2 ors)) fun b =>
    a.1 == b.1 && a.2.1 == b.2.1 && a.2.2.2 == b.2.2.2

#eval say "C85_ole_run" <|
  okAnd (oleView v u (cut2 os) (cut2 ors)) fun a => okAnd (mod2Ole v u (cut2 os) (cut2 ors)) fun b => a.2.2 == b

def fS (i : Nat) : F4S := ⟨blk (6000 + 4 * i), blk (6001 + 4 * i), blk (6002 + 4 * i), blk (6003 + 4 * i)⟩
def fR (s : F4S) (l m : B) : F4R := ⟨l, m, sel m (sel l s.o0 s.o1) (sel l s.o2 s.o3)⟩
def fs : List F4S := (List.range n).map fS
def frs : List F4R := fs.mapIdx fun i s => fR s (blk (6400 + i)) (blk (6500 + i))

#eval say "C85_four_sender" <|
  let rs' := fs.mapIdx fun i s => fR s (blk (6400 + i) ^^^ (g u i).2 ^^^ (g u' i).2) (blk (6500 + i) ^^^ (g u i).1 ^^^ (g u' i).1)
  okAnd (f4View v u (cut fs) (cut frs)) fun a => okAnd (f4View v u' (cut fs) (cut rs')) fun b =>
    a.1 == b.1 && a.2.1 == b.2.1 && a.2.2.1 == b.2.2.1 && a.1.flatten.length == n && a.2.1.flatten.length == n

/-- Parity of the sum of the parties' digits as the sender's table: what is added for the receiver's digit `t`. -/
def tv (d : B × B) (t p : Nat) : Bool := (val d p + t) % 3 == 1
#eval say "C85_four_receiver" <|
  let fs' := fs.mapIdx fun i s =>
    let l := blk (6400 + i)
    let m := blk (6500 + i)
    let w := fun (j : Nat) (o : B) => mk fun p =>
      let k := val (m, l) p ^^^ val (g u i) p ^^^ j
      let e := fun t => tv (g v i) t p ^^ tv (g v' i) t p
      o.getLsbD p ^^ (if k < 3 then e k ^^ e (val (g u i) p) else false)
    (⟨w 0 s.o0, w 1 s.o1, w 2 s.o2, w 3 s.o3⟩ : F4S)
  let rs' := fs'.mapIdx fun i s => fR s (blk (6400 + i)) (blk (6500 + i))
  okAnd (f4View v u (cut fs) (cut frs)) fun a =>
    (okAnd (f4View v' u (cut fs') (cut frs)) fun b => a.1 == b.1 && a.2.1 == b.2.1 && a.2.2.2 == b.2.2.2) &&
      rs'.map F4R.ot == frs.map F4R.ot

#eval say "C85_four_run" <|
  okAnd (f4View v u (cut fs) (cut frs)) fun a => okAnd (mod2F4 v u (cut fs) (cut frs)) fun b => a.2.2 == b

#eval say "C85_convert_messages" <| okAnd (convertView x0 x1 (cut ss) (cut rs)) fun a => okAnd (cvRecv1 x1 (cut rs)) fun c =>
  okAnd (cvSend x0 (cut ss) c) fun d => a.1 == c && a.2.1 == d.1
#eval say "C85_ole_messages" <| okAnd (oleView v u (cut2 os) (cut2 ors)) fun a => okAnd (oleRecv1 u (cut2 ors)) fun c =>
  okAnd (oleSend v (cut2 os) c) fun d => a.1 == c && a.2.1 == d.1
#eval say "C85_four_messages" <| okAnd (f4View v u (cut fs) (cut frs)) fun a => okAnd (f4Recv1 u (cut frs)) fun c =>
  okAnd (f4Send v (cut fs) c) fun d => a.1 == c && a.2.1 == d.1

end SecJoin.Checks.HidingPrf
