import Verif.Hiding.Ot
import Verif.Checks.Util
/-!
# Tests of the transcripts of the OT-based steps

The transfer that shows the viewer the same for another input is computed here from the formulas of the protocol.
-/
namespace SecJoin.Checks.HidingOt
open SecJoin SecJoin.Radix SecJoin.Checks

def ot (i : Nat) : Ot := ⟨BitVec.ofNat 32 (rnd (3 * i + 1) 4294967296), BitVec.ofNat 32 (rnd (5 * i + 2) 4294967296), rnd i 2 == 1⟩
def bytes (s n : Nat) : List Byte := (List.range n).map fun i => BitVec.ofNat 8 (rnd (s + i) 256)
def words (s n : Nat) : List (BitVec 32) := (List.range n).map fun i => BitVec.ofNat 32 (rnd (s + i) 4294967296)
def bit (m : Mat Row) (w k : Nat) : Bool := ((m.rows.getD (k / w) []).getD (k % w / 8) 0).getLsbD (k % w % 8)
def flat (v : List Byte) (k : Nat) : Bool := (v.getD (k / 8) 0).getLsbD (k % 8)
def split3 (l : List Ot) (a b : Nat) : List (List Ot) := [l.take a, (l.drop a).take b, l.drop (a + b)]
def sg (y : Bool) : BitVec 32 := if y then -1 else 1

def in0 : Mat Row := ⟨2, (List.range 3).map fun i => bytes (10 * i) 2⟩
def in0' : Mat Row := ⟨2, (List.range 3).map fun i => bytes (100 + 10 * i) 2⟩
def in1 : Mat Row := ⟨2, (List.range 3).map fun i => bytes (200 + 10 * i) 2⟩
def in1' : Mat Row := ⟨2, (List.range 3).map fun i => bytes (300 + 10 * i) 2⟩
def os : List Ot := (List.range 33).map ot

#eval say "C84_inject_sender" <|
  let os' := os.mapIdx fun k o => { o with c := (bit in1 11 k ^^ bit in1' 11 k) ^^ o.c }
  okAnd (injView 3 11 32 in0 in1 (split3 os 7 20)) fun v => okAnd (injView 3 11 32 in0 in1' (split3 os' 7 20)) fun v' =>
    v.1 == v'.1 && v.2.1 == v'.2.1 && v.2.2.1 == v'.2.2.1 && v.1.length == 33 && v.2.1.length == 132

#eval say "C84_inject_receiver" <|
  let os' := os.mapIdx fun k o =>
    let e := sg (bit in0 11 k) - sg (bit in0' 11 k)
    let e := if bit in1 11 k then e else -e
    if o.c then { o with m0 := o.m0 + e } else { o with m1 := o.m1 + e }
  okAnd (injView 3 11 32 in0 in1 (split3 os 7 20)) fun v => okAnd (injView 3 11 32 in0' in1 (split3 os' 7 20)) fun v' =>
    v.1 == v'.1 && v.2.1 == v'.2.1 && v.2.2.2 == v'.2.2.2

#eval say "C84_inject_run" <|
  okAnd (injView 3 11 32 in0 in1 (split3 os 7 20)) fun v => okAnd (bitInjection 3 11 32 in0 in1 (split3 os 7 20)) fun r =>
    v.2.2 == r && (List.range 33).all fun k => (r.1.getD k 0) + (r.2.getD k 0) == (if bit in0 11 k ^^ bit in1 11 k then 1 else 0)

def fP : List Byte := bytes 400 4
def fP' : List Byte := bytes 410 4
def fQ : List Byte := bytes 420 4
def fQ' : List Byte := bytes 430 4
def sQ : List (BitVec 32) := words 440 30
def sQ' : List (BitVec 32) := words 480 30
def ho : List Ot := (List.range 30).map fun i => ot (i + 50)

#eval say "C84_inner_sender" <|
  let os' := ho.mapIdx fun k o => { o with c := (flat fP k ^^ flat fP' k) ^^ o.c }
  okAnd (hadView fP fQ sQ 6 5 (split3 ho 10 15) 0) fun v => okAnd (hadView fP' fQ sQ 6 5 (split3 os' 10 15) 0) fun v' =>
    v.1 == v'.1 && v.2.1 == v'.2.1 && v.2.2.map Prod.snd == v'.2.2.map Prod.snd && v.1.length == 30 && v.2.1.length == 30

#eval say "C84_inner_receiver" <|
  let os' := ho.mapIdx fun k o =>
    let e := sg (flat fQ k) * sQ.getD k 0 - sg (flat fQ' k) * sQ'.getD k 0
    let e := if flat fP k then e else -e
    if o.c then { o with m0 := o.m0 + e } else { o with m1 := o.m1 + e }
  okAnd (hadView fP fQ sQ 6 5 (split3 ho 10 15) 0) fun v => okAnd (hadView fP fQ' sQ' 6 5 (split3 os' 10 15) 0) fun v' =>
    v.1 == v'.1 && v.2.1 == v'.2.1 && v.2.2.map Prod.fst == v'.2.2.map Prod.fst

#eval say "C84_inner_run" <|
  okAnd (hadView fP fQ sQ 6 5 (split3 ho 10 15) 0) fun v => okAnd (hadLoop fP fQ sQ 6 5 (split3 ho 10 15) 0) fun r => v.2.2 == r

end SecJoin.Checks.HidingOt
