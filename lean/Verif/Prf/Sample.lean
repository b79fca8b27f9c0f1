import Verif.Prf.Mod3
/-!
# Sampling digits modulo three

Model of the samplers of `/repo/secure-join/Prf/mod3.cpp`. The outputs of the pseudorandom generator are arbitrary. The
buffers for the first eight rounds and for the extra bytes are two independent streams here; in the code they take turns in
one generator. -/
namespace SecJoin
namespace Mod3

/-- `mod3Table`, mod3.cpp 17-51, copied. -/
def tab : List Nat := [
  0x10000, 0x10001, 0x10100, 0x10002, 0x10003, 0x10102, 0x10200, 0x10201, 0x10300, 0x10004, 0x10005, 0x10104,
  0x10006, 0x10007, 0x10106, 0x10204, 0x10205, 0x10304, 0x10400, 0x10401, 0x10500, 0x10402, 0x10403, 0x10502,
  0x10600, 0x10601, 0x10700, 0x10008, 0x10009, 0x10108, 0x1000a, 0x1000b, 0x1010a, 0x10208, 0x10209, 0x10308,
  0x1000c, 0x1000d, 0x1010c, 0x1000e, 0x1000f, 0x1010e, 0x1020c, 0x1020d, 0x1030c, 0x10408, 0x10409, 0x10508,
  0x1040a, 0x1040b, 0x1050a, 0x10608, 0x10609, 0x10708, 0x10800, 0x10801, 0x10900, 0x10802, 0x10803, 0x10902,
  0x10a00, 0x10a01, 0x10b00, 0x10804, 0x10805, 0x10904, 0x10806, 0x10807, 0x10906, 0x10a04, 0x10a05, 0x10b04,
  0x10c00, 0x10c01, 0x10d00, 0x10c02, 0x10c03, 0x10d02, 0x10e00, 0x10e01, 0x10f00, 0x10010, 0x10011, 0x10110,
  0x10012, 0x10013, 0x10112, 0x10210, 0x10211, 0x10310, 0x10014, 0x10015, 0x10114, 0x10016, 0x10017, 0x10116,
  0x10214, 0x10215, 0x10314, 0x10410, 0x10411, 0x10510, 0x10412, 0x10413, 0x10512, 0x10610, 0x10611, 0x10710,
  0x10018, 0x10019, 0x10118, 0x1001a, 0x1001b, 0x1011a, 0x10218, 0x10219, 0x10318, 0x1001c, 0x1001d, 0x1011c,
  0x1001e, 0x1001f, 0x1011e, 0x1021c, 0x1021d, 0x1031c, 0x10418, 0x10419, 0x10518, 0x1041a, 0x1041b, 0x1051a,
  0x10618, 0x10619, 0x10718, 0x10810, 0x10811, 0x10910, 0x10812, 0x10813, 0x10912, 0x10a10, 0x10a11, 0x10b10,
  0x10814, 0x10815, 0x10914, 0x10816, 0x10817, 0x10916, 0x10a14, 0x10a15, 0x10b14, 0x10c10, 0x10c11, 0x10d10,
  0x10c12, 0x10c13, 0x10d12, 0x10e10, 0x10e11, 0x10f10, 0x11000, 0x11001, 0x11100, 0x11002, 0x11003, 0x11102,
  0x11200, 0x11201, 0x11300, 0x11004, 0x11005, 0x11104, 0x11006, 0x11007, 0x11106, 0x11204, 0x11205, 0x11304,
  0x11400, 0x11401, 0x11500, 0x11402, 0x11403, 0x11502, 0x11600, 0x11601, 0x11700, 0x11008, 0x11009, 0x11108,
  0x1100a, 0x1100b, 0x1110a, 0x11208, 0x11209, 0x11308, 0x1100c, 0x1100d, 0x1110c, 0x1100e, 0x1100f, 0x1110e,
  0x1120c, 0x1120d, 0x1130c, 0x11408, 0x11409, 0x11508, 0x1140a, 0x1140b, 0x1150a, 0x11608, 0x11609, 0x11708,
  0x11800, 0x11801, 0x11900, 0x11802, 0x11803, 0x11902, 0x11a00, 0x11a01, 0x11b00, 0x11804, 0x11805, 0x11904,
  0x11806, 0x11807, 0x11906, 0x11a04, 0x11a05, 0x11b04, 0x11c00, 0x11c01, 0x11d00, 0x11c02, 0x11c03, 0x11d02,
  0x11e00, 0x11e01, 0x11f00, 0x0, 0x0, 0x0, 0x0, 0x0, 0x0, 0x0, 0x0, 0x0,
  0x0, 0x0, 0x0, 0x0]

/-- `mod3TableV`, mod3.cpp 53-86, copied. -/
def tabV : List Nat := [
  5, 5, 5, 5, 5, 5, 5, 5, 5, 5, 5, 5, 5, 5, 5, 5,
  5, 5, 5, 5, 5, 5, 5, 5, 5, 5, 5, 5, 5, 5, 5, 5,
  5, 5, 5, 5, 5, 5, 5, 5, 5, 5, 5, 5, 5, 5, 5, 5,
  5, 5, 5, 5, 5, 5, 5, 5, 5, 5, 5, 5, 5, 5, 5, 5,
  5, 5, 5, 5, 5, 5, 5, 5, 5, 5, 5, 5, 5, 5, 5, 5,
  5, 5, 5, 5, 5, 5, 5, 5, 5, 5, 5, 5, 5, 5, 5, 5,
  5, 5, 5, 5, 5, 5, 5, 5, 5, 5, 5, 5, 5, 5, 5, 5,
  5, 5, 5, 5, 5, 5, 5, 5, 5, 5, 5, 5, 5, 5, 5, 5,
  5, 5, 5, 5, 5, 5, 5, 5, 5, 5, 5, 5, 5, 5, 5, 5,
  5, 5, 5, 5, 5, 5, 5, 5, 5, 5, 5, 5, 5, 5, 5, 5,
  5, 5, 5, 5, 5, 5, 5, 5, 5, 5, 5, 5, 5, 5, 5, 5,
  5, 5, 5, 5, 5, 5, 5, 5, 5, 5, 5, 5, 5, 5, 5, 5,
  5, 5, 5, 5, 5, 5, 5, 5, 5, 5, 5, 5, 5, 5, 5, 5,
  5, 5, 5, 5, 5, 5, 5, 5, 5, 5, 5, 5, 5, 5, 5, 5,
  5, 5, 5, 5, 5, 5, 5, 5, 5, 5, 5, 5, 5, 5, 5, 5,
  5, 5, 5, 0, 0, 0, 0, 0, 0, 0, 0, 0, 0, 0, 0, 0]

/-- `mod3TableLsb`, mod3.cpp 88-121, copied. -/
def tabLsb : List Nat := [
  0b00000, 0b00001, 0b00000, 0b00010, 0b00011, 0b00010, 0b00000, 0b00001,
  0b00000, 0b00100, 0b00101, 0b00100, 0b00110, 0b00111, 0b00110, 0b00100,
  0b00101, 0b00100, 0b00000, 0b00001, 0b00000, 0b00010, 0b00011, 0b00010,
  0b00000, 0b00001, 0b00000, 0b01000, 0b01001, 0b01000, 0b01010, 0b01011,
  0b01010, 0b01000, 0b01001, 0b01000, 0b01100, 0b01101, 0b01100, 0b01110,
  0b01111, 0b01110, 0b01100, 0b01101, 0b01100, 0b01000, 0b01001, 0b01000,
  0b01010, 0b01011, 0b01010, 0b01000, 0b01001, 0b01000, 0b00000, 0b00001,
  0b00000, 0b00010, 0b00011, 0b00010, 0b00000, 0b00001, 0b00000, 0b00100,
  0b00101, 0b00100, 0b00110, 0b00111, 0b00110, 0b00100, 0b00101, 0b00100,
  0b00000, 0b00001, 0b00000, 0b00010, 0b00011, 0b00010, 0b00000, 0b00001,
  0b00000, 0b10000, 0b10001, 0b10000, 0b10010, 0b10011, 0b10010, 0b10000,
  0b10001, 0b10000, 0b10100, 0b10101, 0b10100, 0b10110, 0b10111, 0b10110,
  0b10100, 0b10101, 0b10100, 0b10000, 0b10001, 0b10000, 0b10010, 0b10011,
  0b10010, 0b10000, 0b10001, 0b10000, 0b11000, 0b11001, 0b11000, 0b11010,
  0b11011, 0b11010, 0b11000, 0b11001, 0b11000, 0b11100, 0b11101, 0b11100,
  0b11110, 0b11111, 0b11110, 0b11100, 0b11101, 0b11100, 0b11000, 0b11001,
  0b11000, 0b11010, 0b11011, 0b11010, 0b11000, 0b11001, 0b11000, 0b10000,
  0b10001, 0b10000, 0b10010, 0b10011, 0b10010, 0b10000, 0b10001, 0b10000,
  0b10100, 0b10101, 0b10100, 0b10110, 0b10111, 0b10110, 0b10100, 0b10101,
  0b10100, 0b10000, 0b10001, 0b10000, 0b10010, 0b10011, 0b10010, 0b10000,
  0b10001, 0b10000, 0b00000, 0b00001, 0b00000, 0b00010, 0b00011, 0b00010,
  0b00000, 0b00001, 0b00000, 0b00100, 0b00101, 0b00100, 0b00110, 0b00111,
  0b00110, 0b00100, 0b00101, 0b00100, 0b00000, 0b00001, 0b00000, 0b00010,
  0b00011, 0b00010, 0b00000, 0b00001, 0b00000, 0b01000, 0b01001, 0b01000,
  0b01010, 0b01011, 0b01010, 0b01000, 0b01001, 0b01000, 0b01100, 0b01101,
  0b01100, 0b01110, 0b01111, 0b01110, 0b01100, 0b01101, 0b01100, 0b01000,
  0b01001, 0b01000, 0b01010, 0b01011, 0b01010, 0b01000, 0b01001, 0b01000,
  0b00000, 0b00001, 0b00000, 0b00010, 0b00011, 0b00010, 0b00000, 0b00001,
  0b00000, 0b00100, 0b00101, 0b00100, 0b00110, 0b00111, 0b00110, 0b00100,
  0b00101, 0b00100, 0b00000, 0b00001, 0b00000, 0b00010, 0b00011, 0b00010,
  0b00000, 0b00001, 0b00000, 0b00000, 0b00000, 0b00000, 0b00000, 0b00000,
  0b00000, 0b00000, 0b00000, 0b00000, 0b00000, 0b00000, 0b00000, 0b00000]

/-- `mod3TableMsb`, mod3.cpp 123-156, copied. -/
def tabMsb : List Nat := [
  0b00000, 0b00000, 0b00001, 0b00000, 0b00000, 0b00001, 0b00010, 0b00010,
  0b00011, 0b00000, 0b00000, 0b00001, 0b00000, 0b00000, 0b00001, 0b00010,
  0b00010, 0b00011, 0b00100, 0b00100, 0b00101, 0b00100, 0b00100, 0b00101,
  0b00110, 0b00110, 0b00111, 0b00000, 0b00000, 0b00001, 0b00000, 0b00000,
  0b00001, 0b00010, 0b00010, 0b00011, 0b00000, 0b00000, 0b00001, 0b00000,
  0b00000, 0b00001, 0b00010, 0b00010, 0b00011, 0b00100, 0b00100, 0b00101,
  0b00100, 0b00100, 0b00101, 0b00110, 0b00110, 0b00111, 0b01000, 0b01000,
  0b01001, 0b01000, 0b01000, 0b01001, 0b01010, 0b01010, 0b01011, 0b01000,
  0b01000, 0b01001, 0b01000, 0b01000, 0b01001, 0b01010, 0b01010, 0b01011,
  0b01100, 0b01100, 0b01101, 0b01100, 0b01100, 0b01101, 0b01110, 0b01110,
  0b01111, 0b00000, 0b00000, 0b00001, 0b00000, 0b00000, 0b00001, 0b00010,
  0b00010, 0b00011, 0b00000, 0b00000, 0b00001, 0b00000, 0b00000, 0b00001,
  0b00010, 0b00010, 0b00011, 0b00100, 0b00100, 0b00101, 0b00100, 0b00100,
  0b00101, 0b00110, 0b00110, 0b00111, 0b00000, 0b00000, 0b00001, 0b00000,
  0b00000, 0b00001, 0b00010, 0b00010, 0b00011, 0b00000, 0b00000, 0b00001,
  0b00000, 0b00000, 0b00001, 0b00010, 0b00010, 0b00011, 0b00100, 0b00100,
  0b00101, 0b00100, 0b00100, 0b00101, 0b00110, 0b00110, 0b00111, 0b01000,
  0b01000, 0b01001, 0b01000, 0b01000, 0b01001, 0b01010, 0b01010, 0b01011,
  0b01000, 0b01000, 0b01001, 0b01000, 0b01000, 0b01001, 0b01010, 0b01010,
  0b01011, 0b01100, 0b01100, 0b01101, 0b01100, 0b01100, 0b01101, 0b01110,
  0b01110, 0b01111, 0b10000, 0b10000, 0b10001, 0b10000, 0b10000, 0b10001,
  0b10010, 0b10010, 0b10011, 0b10000, 0b10000, 0b10001, 0b10000, 0b10000,
  0b10001, 0b10010, 0b10010, 0b10011, 0b10100, 0b10100, 0b10101, 0b10100,
  0b10100, 0b10101, 0b10110, 0b10110, 0b10111, 0b10000, 0b10000, 0b10001,
  0b10000, 0b10000, 0b10001, 0b10010, 0b10010, 0b10011, 0b10000, 0b10000,
  0b10001, 0b10000, 0b10000, 0b10001, 0b10010, 0b10010, 0b10011, 0b10100,
  0b10100, 0b10101, 0b10100, 0b10100, 0b10101, 0b10110, 0b10110, 0b10111,
  0b11000, 0b11000, 0b11001, 0b11000, 0b11000, 0b11001, 0b11010, 0b11010,
  0b11011, 0b11000, 0b11000, 0b11001, 0b11000, 0b11000, 0b11001, 0b11010,
  0b11010, 0b11011, 0b11100, 0b11100, 0b11101, 0b11100, 0b11100, 0b11101,
  0b11110, 0b11110, 0b11111, 0b00000, 0b00000, 0b00000, 0b00000, 0b00000,
  0b00000, 0b00000, 0b00000, 0b00000, 0b00000, 0b00000, 0b00000, 0b00000]

/-- One lane of `lsbSum`, `msbSum` and `size`. -/
structure Lane where
  lsb : BitVec 32 := 0
  msb : BitVec 32 := 0
  size : Nat := 0

/-- One lane of the loop over `k`, mod3.cpp 552-618: the sums are shifted by five if the byte is a sample, and the sample
is added. -/
def lookupStep (s : Lane) (b : BitVec 8) : Lane :=
  let v := tabV.getD b.toNat 0
  ⟨s.lsb <<< v ||| .ofNat 32 (tabLsb.getD b.toNat 0), s.msb <<< v ||| .ofNat 32 (tabMsb.getD b.toNat 0), s.size + v⟩

/-- The body of the `while` loop, mod3.cpp 636-653. -/
def extraStep (s : Lane) (b : BitVec 8) : Lane :=
  let v := tab.getD b.toNat 0
  let flag := 5 * (v / 2 ^ 16)
  ⟨s.lsb <<< flag ||| .ofNat 32 (v % 256), s.msb <<< flag ||| .ofNat 32 (v / 2 ^ 8 % 256), s.size + flag⟩

/-- The `while` loop, mod3.cpp 634-654, and the bytes left over. With no byte left it has not ended. -/
def finish : Lane → List (BitVec 8) → Option (Lane × List (BitVec 8))
  | s, [] => if s.size < 32 then none else some (s, [])
  | s, b :: bs => if s.size < 32 then finish (extraStep s b) bs else some (s, b :: bs)

/-- The byte of lane `x` in round `r`: the 32 lanes are 4 vectors of 8 words, and vector `j` uses byte `j` of every word. -/
def laneByte (draw : Nat → Nat → BitVec 32) (x r : Nat) : BitVec 8 := (draw r (x % 8)).extractLsb' (8 * (x / 8)) 8

/-- The eight rounds, mod3.cpp 538-618, for lane `x`. -/
def lane8 (draw : Nat → Nat → BitVec 32) (x : Nat) : Lane :=
  (List.range 8).foldl (fun s r => lookupStep s (laneByte draw x r)) {}

/-- mod3.cpp 620-656 over a list of lanes. -/
def finishAll : List Lane → List (BitVec 8) → Option (List Lane × List (BitVec 8))
  | [], bs => some ([], bs)
  | s :: ss, bs => do
    let (s, bs) ← finish s bs
    let (ss, bs) ← finishAll ss bs
    return (s :: ss, bs)

/-- Block `i` of the memory of the lanes, given the words. -/
def blockOf (w : List (BitVec 32)) (i : Nat) : Block :=
  (w.getD (4 * i + 3) 0 ++ w.getD (4 * i + 2) 0 ++ w.getD (4 * i + 1) 0 ++ w.getD (4 * i) 0 : BitVec (32 + 32 + 32 + 32))

/-- The loop over `i`, mod3.cpp 529-664: groups of eight blocks, the last one cut off. `g` is the number of the group. -/
def lookupLoop (draw : Nat → Nat → Nat → BitVec 32) (n g : Nat) (extra : List (BitVec 8)) : Option (List (Block × Block)) :=
  if n = 0 then some []
  else do
    let (lanes, extra) ← finishAll ((List.range 32).map (lane8 (draw g))) extra
    let out := (List.range (min n 8)).map fun i => (blockOf (lanes.map (·.msb)) i, blockOf (lanes.map (·.lsb)) i)
    let rest ← lookupLoop draw (n - 8) (g + 1) extra
    return out ++ rest
termination_by n

/-- `sampleMod3Lookup(prng, msbVec, lsbVec)`, mod3.cpp 506-661, on spans of `nm` and `nl` blocks. -/
def sampleLookup (draw : Nat → Nat → Nat → BitVec 32) (nm nl : Nat) (extra : List (BitVec 8)) : Res (Option (List (Block × Block))) := do
  throwIf (nm != nl)
  .ok (lookupLoop draw nm 0 extra)

/-! ## One digit from each seed -/

/-- `oc::countl_zero`. -/
def clz (v : BitVec 64) : Nat := (List.range 64).findIdx fun i => v.getLsbD (63 - i)

/-- The body of the loop of `sample8Mod3`, mod3.cpp 672-689: high and low bit. Without a valid pair the index is -1 and
the shift is undefined. -/
def sample1 (x : Block) : Res (Bool × Bool) :=
  let lsbs : BitVec 64 := x.extractLsb' 0 64
  let msbs : BitVec 64 := x.extractLsb' 64 64
  let valid := ~~~(lsbs &&& msbs)
  if clz valid ≤ 63 then
    let idx := 63 - clz valid
    .ok (msbs.getLsbD idx, lsbs.getLsbD idx)
  else .error .ub

/-- `sample8Mod3(seed, msb, lsb)`, mod3.cpp 664-692, the digits `j ..`. -/
def sample8 : List Block → Nat → BitVec 8 → BitVec 8 → Res (BitVec 8 × BitVec 8)
  | [], _, m, l => .ok (m, l)
  | x :: xs, j, m, l => do
    let (a, b) ← sample1 x
    sample8 xs (j + 1) (m ||| (if a then 1 else 0 : BitVec 8) <<< j) (l ||| (if b then 1 else 0 : BitVec 8) <<< j)

/-- The loop of `sampleMod3`, mod3.cpp 706-709, as pairs of bytes. -/
def sampleLoop (seed : List Block) : Nat → Res (List (BitVec 8 × BitVec 8))
  | 0 => .ok []
  | k + 1 => do
    let b ← sample8 (seed.take 8) 0 0 0
    let r ← sampleLoop (seed.drop 8) k
    .ok (b :: r)

/-- `sampleMod3(seed, msbVec, lsbVec)`, mod3.cpp 696-711, on spans of `nm` and `nl` blocks: the bytes of both. -/
def sampleMod3 (seed : List Block) (nm nl : Nat) : Res (List (BitVec 8 × BitVec 8)) := do
  throwIf (nm * 128 != seed.length)
  throwIf (nm != nl)
  sampleLoop seed (seed.length / 8)

end Mod3
end SecJoin
