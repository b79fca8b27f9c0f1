import Verif.Sort.RadixGmw
import Verif.Sort.RadixSum
import Verif.GMW.CallProps
/-!
# The circuits of the radix sort evaluated by GMW: lemmas
-/
namespace SecJoin
namespace Radix
open Gmw.Wires (Env Cir setRun getOutput getOutputBin Computes given)

/-- The number with the given low bits. -/
def bitsNat : Nat → (Nat → Bool) → Nat
  | 0, _ => 0
  | w + 1, f => (f 0).toNat + 2 * bitsNat w fun j => f (j + 1)

/-- What is required of the one-hot circuit: one input of `L` consecutive wires, one output of `2^L` consecutive wires, and output `j` is
the one-hot function of the digit. -/
structure HotCir (L : Nat) (c : Cir) : Prop where
  ins : ∃ a, c.ins = [List.range' a L]
  outs : ∃ o, c.outs = [List.range' o (2 ^ L)]
  computes : Computes c fun x _ j => oneHot L (x 0) j

/-- What is required of the adder of the library: two inputs and an output of `w` consecutive wires, and the output is the sum of the
inputs modulo `2^w`. -/
structure AddCir (w : Nat) (c : Cir) : Prop where
  ins : ∃ a b, c.ins = [List.range' a w, List.range' b w]
  outs : ∃ o, c.outs = [List.range' o w]
  computes : Computes c fun x _ j => ((bitsNat w (x 0) + bitsNat w (x 1)) % 2 ^ w).testBit j

theorem bitsNat_lt : ∀ (w : Nat) (f : Nat → Bool), bitsNat w f < 2 ^ w
  | 0, _ => by simp [bitsNat]
  | w + 1, f => by
    have := bitsNat_lt w fun j => f (j + 1)
    rw [bitsNat, Nat.pow_succ]
    have := Bool.toNat_le (f 0)
    omega

theorem bitsNat_testBit : ∀ (w : Nat) (f : Nat → Bool) (j : Nat), (bitsNat w f).testBit j = (decide (j < w) && f j)
  | 0, f, j => by simp [bitsNat]
  | w + 1, f, 0 => by
    rw [bitsNat, Nat.testBit_zero]
    cases f 0 <;> simp <;> omega
  | w + 1, f, j + 1 => by
    rw [bitsNat, Nat.testBit_succ, show ((f 0).toNat + 2 * bitsNat w fun j => f (j + 1)) / 2 = bitsNat w fun j => f (j + 1) by
      have := Bool.toNat_le (f 0); omega, bitsNat_testBit w]
    simp

theorem bitsNat_false (w : Nat) : bitsNat w (fun _ => false) = 0 := by
  refine Nat.eq_of_testBit_eq fun j => ?_
  rw [bitsNat_testBit]
  simp

theorem bitsNat_word {w : Nat} {f : Nat → Bool} {x : BitVec 32} (h : ∀ j, j < w → f j = x.getLsbD j) : bitsNat w f = x.toNat % 2 ^ w := by
  refine Nat.eq_of_testBit_eq fun j => ?_
  rw [bitsNat_testBit, Nat.testBit_mod_two_pow]
  by_cases hj : j < w
  · rw [h j hj]; rfl
  · rw [decide_eq_false hj]; rfl

theorem toWord_bit (f : Nat → Bool) {j : Nat} (h : j < 32) : (toWord f).getLsbD j = f j := by
  unfold toWord
  rw [BitVec.getLsbD_cast, BitVec.getLsbD_ofBoolListLE, List.getD_eq_getElem?_getD, List.getElem?_map, List.getElem?_range h]
  rfl

theorem lowBits_bit (w : Nat) (x : BitVec 32) {j : Nat} (h : j < 32) : (lowBits w x).getLsbD j = (decide (j < w) && x.getLsbD j) := by
  unfold lowBits
  rw [BitVec.getLsbD_ofNat, Nat.testBit_mod_two_pow, decide_eq_true h, Bool.true_and]
  rfl

theorem u32Bytes_bit (w : BitVec 32) {j : Nat} (h : j < 32) : ((u32Bytes w).getD (j / 8) 0).getLsbD (j % 8) = w.getLsbD j := by
  have h8 : j % 8 < 8 := Nat.mod_lt _ (by decide)
  have hq : j / 8 = 0 ∨ j / 8 = 1 ∨ j / 8 = 2 ∨ j / 8 = 3 := by omega
  rcases hq with q | q | q | q <;> rw [q] <;> simp [u32Bytes, h8] <;> congr 1 <;> omega

theorem range'_consec (a m : Nat) (j : Nat) (h : j + 1 < (List.range' a m).length) : (List.range' a m)[j + 1] = (List.range' a m)[j] + 1 := by
  simp; omega

theorem range'_ne {a m : Nat} (h : 0 < m) : List.range' a m ≠ [] := by simp; omega

/-- The rows of the output of GMW, with the bits beyond the bundle zero, are rows of as many bits. -/
theorem bitRow_wide {m : Nat} {f g : Nat → Bool} (h : ∀ j, j < m → f j = g j) (h0 : ∀ j, m ≤ j → f j = false) :
    bitRow (8 * divCeil m 8) f = bitRow m g := by
  unfold bitRow
  rw [show divCeil (8 * divCeil m 8) 8 = divCeil m 8 by unfold divCeil; omega]
  refine List.map_congr_left fun b hb => ?_
  rw [List.mem_range] at hb
  have e : (fun k => decide (b * 8 + k < 8 * divCeil m 8) && f (b * 8 + k)) = fun k => decide (b * 8 + k < m) && g (b * 8 + k) := by
    funext k
    by_cases hk : b * 8 + k < m
    · rw [decide_eq_true hk, decide_eq_true (by unfold divCeil; omega), h _ hk]
    · rw [decide_eq_false hk, h0 _ (by omega), Bool.and_false]; rfl
  rw [e]

theorem hadRows_length {fP fQ : List Byte} {sQ : List (BitVec 32)} {cols : Nat} : ∀ (m : Nat) (ots : List Ot) (i : Nat) (x : List (BitVec 32 × BitVec 32)),
    hadRows fP fQ sQ cols ots i m = .ok x → x.length = m
  | 0, _, _, x, h => by cases h; rfl
  | m + 1, ots, i, x, h => by
    unfold hadRows at h
    cases h1 : hadRow fP fQ sQ ots cols (i * cols) 0 0 with
    | error e => rw [h1] at h; cases h
    | ok y =>
      rw [h1, ok_bind] at h
      cases h2 : hadRows fP fQ sQ cols (ots.drop cols) (i + 1) m with
      | error e => rw [h2] at h; cases h
      | ok r =>
        rw [h2, ok_bind] at h
        cases h
        rw [List.length_cons, hadRows_length m _ _ r h2]

theorem hadLoop_length {fP fQ : List Byte} {sQ : List (BitVec 32)} {rows cols : Nat} : ∀ (bs : List (List Ot)) (i : Nat)
    (x : List (BitVec 32 × BitVec 32)), hadLoop fP fQ sQ rows cols bs i = .ok x → x.length = rows - i
  | [], i, x, h => by
    unfold hadLoop at h
    split at h
    · cases h; simp; omega
    · cases h
  | b :: bs, i, x, h => by
    unfold hadLoop at h
    split at h
    · cases h; simp; omega
    · cases h0 : throwIf (b.length % cols != 0) with
      | error e => rw [h0] at h; cases h
      | ok _ =>
      rw [h0, ok_bind] at h
      dsimp only at h
      cases h1 : hadRows fP fQ sQ cols b i (min (rows - i) (b.length / cols)) with
      | error e => rw [h1] at h; cases h
      | ok y =>
      rw [h1, ok_bind] at h
      cases h2 : hadLoop fP fQ sQ rows cols bs (i + min (rows - i) (b.length / cols)) with
      | error e => rw [h2] at h; cases h
      | ok r =>
      rw [h2, ok_bind] at h
      cases h
      rw [List.length_append, hadRows_length _ _ _ _ h1, hadLoop_length bs _ r h2]
      omega

/-- The one-hot function looks at the bits of the digit only. -/
theorem oneHot_congr {L : Nat} {x y : Nat → Bool} (h : ∀ t, t < L → x t = y t) {j : Nat} (hj : j < 2 ^ L) : oneHot L x j = oneHot L y j := by
  have hx : ∀ t, t < L → x t = (bitsNat L x).testBit t := fun t ht => by rw [bitsNat_testBit, decide_eq_true ht]; rfl
  rw [oneHot_ok (bitsNat_lt L x) hx hj, oneHot_ok (bitsNat_lt L x) (fun t ht => by rw [← h t ht, hx t ht]) hj]

/-- The one-hot step by GMW gives what the functionality gives for some mask. -/
theorem oneHotGmw_eq {E : Env} {c : Cir} {n L : Nat} (hn : 0 < n) (h1 : 1 ≤ L) (h8 : L ≤ 8) (hc : L ≠ 1 → HotCir L c) (hE : L ≠ 1 → E.Ok n c)
    {k0 k1 : List Byte} (l0 : k0.length = n) (l1 : k1.length = n) :
    ∃ oh, oneHotGmw E c n L k0 k1 = .ok (oneHotShares L oh k0 k1) := by
  by_cases hL : L = 1
  · exact ⟨fun _ _ => false, by rw [oneHotGmw, oneHotShares, if_pos hL, if_pos hL]⟩
  obtain ⟨⟨a, hi⟩, ⟨o, ho⟩, hcmp⟩ := hc hL
  have hfit : ∀ k : List Byte, k.length = n → Gmw.Wires.Gives n c.ins c.outs [.setInput 0 (k.map fun b => [b]) 1 1] := fun k hk =>
    Gmw.Wires.gives_one (by rw [hi]; rfl) ⟨_, by rw [hi]; rfl, range'_ne (by omega), range'_consec a L, by rw [List.length_range']; omega,
      by rw [List.length_map, hk]⟩ rfl rfl
  obtain ⟨t0, t1, e, o0, o1, k⟩ := Gmw.Wires.C72_call hn hcmp (hfit k0 l0) (hfit k1 l1) (hE hL)
  have hp : 0 < 2 ^ L := Nat.two_pow_pos L
  have hb : c.outs[0]? = some (List.range' o (2 ^ L)) := by rw [ho]; rfl
  obtain ⟨f0, f1, g0, g1, hs, hz⟩ := k 0 _ hb (range'_ne hp) (range'_consec o _) (divCeil (2 ^ L) 8) 1 (by
    rw [List.length_range', Nat.div_one]; rfl)
  rw [List.length_range'] at hs hz
  have e0 := Gmw.Wires.getOutputBin_eq (junk := E.junk0) (s := t0) (i := 0) (by rw [o0]; exact hb) n
  have e1 := Gmw.Wires.getOutputBin_eq (junk := E.junk1) (s := t1) (i := 0) (by rw [o1]; exact hb) n
  rw [List.length_range'] at e0 e1
  refine ⟨f0, ?_⟩
  have hv : (List.zipWith (· ^^^ ·) k0 k1).length = n := by simp [l0, l1]
  have r0 : ((List.range n).map fun i => bitRow (8 * divCeil (2 ^ L) 8) (f0 i)) = (List.range n).map fun i => bitRow (2 ^ L) (f0 i) :=
    List.map_congr_left fun i _ => bitRow_wide (fun j _ => rfl) fun j hj => (hz i j hj).1
  have r1 : ((List.range n).map fun i => bitRow (8 * divCeil (2 ^ L) 8) (f1 i)) = (List.range n).map fun i =>
      bitRow (2 ^ L) fun j => f0 i j ^^ oneHot L (fun t => ((List.zipWith (· ^^^ ·) k0 k1).getD i 0).getLsbD t) j :=
    List.map_congr_left fun i hi' => by
      rw [List.mem_range] at hi'
      refine bitRow_wide (fun j hj => ?_) fun j hj => (hz i j hj).2
      have h := hs i hi' j hj
      have hx : ∀ t, t < L → (given [.setInput 0 (k0.map fun b => [b]) 1 1] 0 t i ^^ given [.setInput 0 (k1.map fun b => [b]) 1 1] 0 t i) =
          ((List.zipWith (· ^^^ ·) k0 k1).getD i 0).getLsbD t := fun t ht => by
        rw [(hfit k0 l0).given (List.mem_singleton.2 rfl) rfl, (hfit k1 l1).given (List.mem_singleton.2 rfl) rfl]
        simp only [List.getD_eq_getElem?_getD, List.getElem?_map, List.getElem?_zipWith]
        rw [List.getElem?_eq_getElem (show i < k0.length by omega), List.getElem?_eq_getElem (show i < k1.length by omega),
          show t / 8 = 0 by omega, show t % 8 = t by omega]
        simp
      rw [oneHot_congr (y := fun t => ((List.zipWith (· ^^^ ·) k0 k1).getD i 0).getLsbD t) hx hj] at h
      rw [← h]
      cases f0 i j <;> simp
  rw [oneHotGmw, if_neg hL, e, ok_bind]
  dsimp only
  rw [e0, g0, ok_bind, e1, g1, ok_bind]
  rw [r0, r1, oneHotShares, if_neg hL]
  dsimp only
  rw [hv]
  by_cases h2 : L = 2
  · rw [if_pos h2, if_pos h2]
  · rw [if_neg h2, if_neg h2]

/-- The conversion by GMW gives what the functionality gives for some mask. -/
theorem arithToBin_eq {E : Env} {c : Cir} {n : Nat} (hn : 0 < n) (hn2 : n ≤ 2 ^ 32) (hc : AddCir (sumBits n) c) (hE : E.Ok n c)
    {sh0 sh1 : List (BitVec 32)} (l0 : sh0.length = n) (l1 : sh1.length = n) :
    ∃ mask : Nat → BitVec 32, arithToBin E c n sh0 sh1 =
      .ok ((List.range n).map fun i => lowBits (sumBits n) (mask i),
        (List.range n).map fun i => lowBits (sumBits n) (mask i) ^^^
          (List.zipWith (fun x1 x0 => lowBits (sumBits n) (lowBits (sumBits n) x1 + lowBits (sumBits n) x0)) sh1 sh0).getD i 0) := by
  have hw : 1 ≤ sumBits n ∧ sumBits n ≤ 32 := by
    unfold sumBits
    have := (Nat.clog_le_iff_le_pow (b := 2) (by decide) (x := n) (y := 32)).2 hn2
    omega
  generalize hws : sumBits n = w at *
  obtain ⟨⟨a, b, hi⟩, ⟨o, ho⟩, hcmp⟩ := hc
  have hcol : (w + 4 * 8 - 1) / (4 * 8) = 4 / 4 := by omega
  have z : ∀ i, i < 2 → Gmw.Wires.Fits n c.ins c.outs (.setZero i) := fun i h => by
    rcases (show i = 0 ∨ i = 1 by omega) with rfl | rfl
    · exact ⟨_, by rw [hi]; rfl, range'_ne (by omega), range'_consec a w⟩
    · exact ⟨_, by rw [hi]; rfl, range'_ne (by omega), range'_consec b w⟩
  have d : ∀ i, i < 2 → ∀ sh : List (BitVec 32), sh.length = n → Gmw.Wires.Fits n c.ins c.outs (.setInput i (sh.map u32Bytes) 4 4) := fun i h sh hl => by
    rcases (show i = 0 ∨ i = 1 by omega) with rfl | rfl
    · exact ⟨_, by rw [hi]; rfl, range'_ne (by omega), range'_consec a w, by rw [List.length_range']; exact hcol, by rw [List.length_map, hl]⟩
    · exact ⟨_, by rw [hi]; rfl, range'_ne (by omega), range'_consec b w, by rw [List.length_range']; exact hcol, by rw [List.length_map, hl]⟩
  have G0 : Gmw.Wires.Gives n c.ins c.outs [.setZero 0, .setInput 1 (sh0.map u32Bytes) 4 4] :=
    Gmw.Wires.gives_two (a := 0) (b := 1) (by rw [hi]; rfl) (z 0 (by decide)) (d 1 (by decide) _ l0) rfl rfl rfl rfl (by decide) (by decide) (by decide)
  have G1 : Gmw.Wires.Gives n c.ins c.outs [.setZero 1, .setInput 0 (sh1.map u32Bytes) 4 4] :=
    Gmw.Wires.gives_two (a := 1) (b := 0) (by rw [hi]; rfl) (z 1 (by decide)) (d 0 (by decide) _ l1) rfl rfl rfl rfl (by decide) (by decide) (by decide)
  obtain ⟨t0, t1, e, o0, o1, k⟩ := Gmw.Wires.C72_call hn hcmp G0 G1 hE
  obtain ⟨f0, f1, g0, g1, hs, hz⟩ := k 0 _ (by rw [ho]; rfl) (range'_ne (by omega)) (range'_consec o _) 4 4 (by rw [List.length_range']; exact hcol)
  rw [List.length_range'] at hs hz
  refine ⟨fun i => toWord (f0 i), ?_⟩
  have r0 : ∀ i, toWord (f0 i) = lowBits w (toWord (f0 i)) := fun i => by
    refine BitVec.eq_of_getLsbD_eq fun j hj => ?_
    rw [lowBits_bit _ _ hj, toWord_bit _ hj]
    by_cases h : j < w
    · rw [decide_eq_true h]; rfl
    · rw [(hz i j (by omega)).1, Bool.and_false]
  rw [arithToBin, l0, l1, bne_self_eq_false, throwIf_false, ok_bind, ok_bind, e, ok_bind]
  dsimp only
  rw [g0, ok_bind, g1, ok_bind]
  refine congrArg Except.ok (Prod.ext (List.map_congr_left fun i _ => r0 i) (List.map_congr_left fun i hi' => ?_))
  rw [List.mem_range] at hi'
  rw [← r0 i]
  refine BitVec.eq_of_getLsbD_eq fun j hj => ?_
  have hz' : (List.zipWith (fun x1 x0 => lowBits w (lowBits w x1 + lowBits w x0)) sh1 sh0).getD i 0 =
      lowBits w (lowBits w (sh1.getD i 0) + lowBits w (sh0.getD i 0)) := by
    simp only [List.getD_eq_getElem?_getD, List.getElem?_zipWith]
    rw [List.getElem?_eq_getElem (show i < sh0.length by omega), List.getElem?_eq_getElem (show i < sh1.length by omega)]
    simp
  rw [hz', BitVec.getLsbD_xor, toWord_bit _ hj, toWord_bit _ hj, lowBits_bit _ _ hj]
  by_cases h : j < w
  · have hh := hs i hi' j h
    have hx0 : bitsNat w (fun j => given [.setZero 0, .setInput 1 (sh0.map u32Bytes) 4 4] 0 j i ^^ given [.setZero 1, .setInput 0 (sh1.map u32Bytes) 4 4] 0 j i) =
        (sh1.getD i 0).toNat % 2 ^ w := bitsNat_word fun t ht => by
      rw [G0.given (i := 0) List.mem_cons_self rfl, G1.given (i := 0) (List.mem_cons_of_mem _ List.mem_cons_self) rfl, Bool.false_xor]
      rw [List.getD_eq_getElem?_getD (l := sh1.map u32Bytes), List.getElem?_map, List.getD_eq_getElem?_getD (l := sh1),
        List.getElem?_eq_getElem (show i < sh1.length by omega)]
      exact u32Bytes_bit _ (by omega)
    have hx1 : bitsNat w (fun j => given [.setZero 0, .setInput 1 (sh0.map u32Bytes) 4 4] 1 j i ^^ given [.setZero 1, .setInput 0 (sh1.map u32Bytes) 4 4] 1 j i) =
        (sh0.getD i 0).toNat % 2 ^ w := bitsNat_word fun t ht => by
      rw [G0.given (i := 1) (List.mem_cons_of_mem _ List.mem_cons_self) rfl, G1.given (i := 1) List.mem_cons_self rfl, Bool.xor_false]
      rw [List.getD_eq_getElem?_getD (l := sh0.map u32Bytes), List.getElem?_map, List.getD_eq_getElem?_getD (l := sh0),
        List.getElem?_eq_getElem (show i < sh0.length by omega)]
      exact u32Bytes_bit _ (by omega)
    rw [hx0, hx1] at hh
    have hsum : ((sh1.getD i 0).toNat % 2 ^ w + (sh0.getD i 0).toNat % 2 ^ w) % 2 ^ w =
        (lowBits w (sh1.getD i 0) + lowBits w (sh0.getD i 0)).toNat % 2 ^ w := by
      have hp : 2 ^ w ∣ 2 ^ 32 := Nat.pow_dvd_pow 2 hw.2
      unfold lowBits
      rw [BitVec.toNat_add, BitVec.toNat_ofNat, BitVec.toNat_ofNat, ← Nat.add_mod _ _ (2 ^ 32), Nat.mod_mod_of_dvd _ hp]
    rw [hsum, Nat.testBit_mod_two_pow, decide_eq_true h, Bool.true_and] at hh
    rw [decide_eq_true h, Bool.true_and]
    rw [show (lowBits w (sh1.getD i 0) + lowBits w (sh0.getD i 0)).getLsbD j = (f0 i j ^^ f1 i j) from hh.symm]
    cases f0 i j <;> simp
  · rw [(hz i j (by omega)).1, (hz i j (by omega)).2, decide_eq_false h]
    rfl

/-- The circuits and correlations of a round are right. -/
structure RoundEnv.Ok (hot add : Cir) (n L : Nat) (r : RoundEnv) : Prop where
  inj : n * 2 ^ L ≤ (r.inj.map List.length).sum
  otA : n * 2 ^ L ≤ (r.otA.map List.length).sum
  otB : n * 2 ^ L ≤ (r.otB.map List.length).sum
  rowsA : ∀ b ∈ r.otA, b.length % 2 ^ L = 0
  rowsB : ∀ b ∈ r.otB, b.length % 2 ^ L = 0
  hot : L ≠ 1 → r.hot.Ok n hot
  add : r.add.Ok n add

theorem hadamardGmw_eq {E : Env} {c : Cir} {n L2 : Nat} (hn : 0 < n) (hn2 : n ≤ 2 ^ 32) (hc : AddCir (sumBits n) c) (hE : E.Ok n c)
    (f0 f1 : List Byte) (s0 s1 : List (BitVec 32)) (otA otB : List (List Ot)) :
    ∃ mask, hadamardGmw E c n L2 f0 f1 s0 s1 otA otB = hadamardSum n L2 f0 f1 s0 s1 otA otB mask := by
  unfold hadamardGmw hadamardSum
  cases ha : hadLoop f0 f1 s1 n L2 otA 0 with
  | error e => exact ⟨fun _ => 0, rfl⟩
  | ok a =>
  cases hb : hadLoop f1 f0 s0 n L2 otB 0 with
  | error e => exact ⟨fun _ => 0, rfl⟩
  | ok b =>
  have la := hadLoop_length _ _ _ ha
  have lb := hadLoop_length _ _ _ hb
  have l0 : (List.zipWith (fun (x y : BitVec 32 × BitVec 32) => y.2 + x.1) a b).length = n := by simp [la, lb]
  have l1 : (List.zipWith (fun (x y : BitVec 32 × BitVec 32) => x.2 + y.1) a b).length = n := by simp [la, lb]
  obtain ⟨mask, h⟩ := arithToBin_eq hn hn2 hc hE l0 l1
  refine ⟨mask, ?_⟩
  simp only [ok_bind]
  rw [h, l0, List.length_zipWith, l0, l1, Nat.min_self]

/-- A round by GMW is a round of the functionality for some randomness, with the same OTs. -/
theorem genBitPermGmw_eq {hot add : Cir} {n L : Nat} (hn : 0 < n) (hn2 : n ≤ 2 ^ 32) (h1 : 1 ≤ L) (hc : L ≠ 1 → HotCir L hot)
    (ha : AddCir (sumBits n) add) {r : RoundEnv} (hr : r.Ok hot add n L) (k0 k1 : List Byte) :
    ∃ oh mask, genBitPermGmw hot add n L k0 k1 r = genBitPerm n L k0 k1 ⟨oh, r.inj, r.otA, r.otB, mask⟩ := by
  unfold genBitPermGmw genBitPerm
  by_cases h8 : L > 8
  · exact ⟨fun _ _ => false, fun _ => 0, by rw [decide_eq_true h8]; rfl⟩
  rw [decide_eq_false h8, throwIf_false, ok_bind]
  by_cases hl : k0.length = n ∧ k1.length = n
  · obtain ⟨oh, e⟩ := oneHotGmw_eq hn h1 (by omega) hc hr.hot hl.1 hl.2
    cases hb : bitInjection 1 (n * 2 ^ L) 32 ⟨(oneHotShares L oh k0 k1).1.length, [(oneHotShares L oh k0 k1).1]⟩
        ⟨(oneHotShares L oh k0 k1).2.length, [(oneHotShares L oh k0 k1).2]⟩ r.inj with
    | error e' =>
      refine ⟨oh, fun _ => 0, ?_⟩
      rw [e]
      simp only [ok_bind, hb, err_bind]
    | ok f =>
      obtain ⟨mask, h⟩ := hadamardGmw_eq (L2 := 2 ^ L) hn hn2 ha hr.add (oneHotShares L oh k0 k1).1 (oneHotShares L oh k0 k1).2
        (aggregateSum (rowsOf (2 ^ L) f.1 n) (2 ^ L) 0).flatten (aggregateSum (rowsOf (2 ^ L) f.2 n) (2 ^ L) 1).flatten r.otA r.otB
      refine ⟨oh, mask, ?_⟩
      rw [e]
      simp only [ok_bind, hb, h]
  · refine ⟨fun _ _ => false, fun _ => 0, ?_⟩
    rw [show (k0.length != n || k1.length != n) = true by simp; omega]
    rfl

/-- The randomness of the functionality that stands for a round by GMW. -/
def Stands (r : RoundEnv) (q : RoundRnd) : Prop := q.inj = r.inj ∧ q.otA = r.otA ∧ q.otB = r.otB

theorem Stands.ok {hot add : Cir} {n L : Nat} {r : RoundEnv} {q : RoundRnd} (h : Stands r q) (hr : r.Ok hot add n L) : q.Ok n L :=
  ⟨h.1 ▸ hr.inj, h.2.1 ▸ hr.otA, h.2.2 ▸ hr.otB, h.2.1 ▸ hr.rowsA, h.2.2 ▸ hr.rowsB⟩

theorem genPermLoopGmw_eq {hot add : Cir} {n L : Nat} (hn : 0 < n) (hn2 : n ≤ 2 ^ 32) (h1 : 1 ≤ L) (hc : L ≠ 1 → HotCir L hot)
    (ha : AddCir (sumBits n) add) (k0 k1 : Mat Row) : ∀ (left : Nat) (rest : List (ComposedPerm × ComposedPerm × RoundEnv)) (kIdx : Nat)
    (d0 d1 : List (BitVec 32)), (∀ s ∈ rest, s.2.2.Ok hot add n L) →
    ∃ rs : List RoundRnd, List.Forall₂ (fun s q => Stands s.2.2 q) rest rs ∧
      genPermLoopGmw hot add n L k0 k1 left rest kIdx d0 d1 =
        genPermLoop n L k0 k1 left (List.zipWith (fun s q => (s.1, s.2.1, q)) rest rs) kIdx d0 d1 := by
  have any : ∀ rest : List (ComposedPerm × ComposedPerm × RoundEnv), ∃ rs : List RoundRnd, List.Forall₂ (fun s q => Stands s.2.2 q) rest rs := by
    intro rest
    induction rest with
    | nil => exact ⟨[], .nil⟩
    | cons s rest ih =>
      obtain ⟨rs, h⟩ := ih
      exact ⟨⟨fun _ _ => false, s.2.2.inj, s.2.2.otA, s.2.2.otB, fun _ => 0⟩ :: rs, .cons ⟨rfl, rfl, rfl⟩ h⟩
  intro left
  induction left with
  | zero =>
    intro rest kIdx d0 d1 _
    obtain ⟨rs, h⟩ := any rest
    exact ⟨rs, h, rfl⟩
  | succ left ih =>
    intro rest kIdx d0 d1 hr
    match rest with
    | [] => exact ⟨[], .nil, rfl⟩
    | (c0, c1, r) :: rest =>
      obtain ⟨rs', hrs'⟩ := any rest
      let q0 : RoundRnd := ⟨fun _ _ => false, r.inj, r.otA, r.otB, fun _ => 0⟩
      cases x1 : extract kIdx L k0 with
      | error e =>
        refine ⟨q0 :: rs', .cons ⟨rfl, rfl, rfl⟩ hrs', ?_⟩
        rw [List.zipWith_cons_cons, genPermLoopGmw, genPermLoop]
        simp only [x1, ok_bind, err_bind]
      | ok sk0 =>
      cases x2 : extract kIdx L k1 with
      | error e =>
        refine ⟨q0 :: rs', .cons ⟨rfl, rfl, rfl⟩ hrs', ?_⟩
        rw [List.zipWith_cons_cons, genPermLoopGmw, genPermLoop]
        simp only [x1, x2, ok_bind, err_bind]
      | ok sk1 =>
      cases x3 : ComposedPerm.derandomizeBoth c0 c1 d0 d1 with
      | error e =>
        refine ⟨q0 :: rs', .cons ⟨rfl, rfl, rfl⟩ hrs', ?_⟩
        rw [List.zipWith_cons_cons, genPermLoopGmw, genPermLoop]
        simp only [x1, x2, x3, ok_bind, err_bind]
      | ok p3 =>
      obtain ⟨a0, a1⟩ := p3
      cases x4 : ComposedPerm.applyBoth a0 a1 .inverse (byteCol sk0) (byteCol sk1) with
      | error e =>
        refine ⟨q0 :: rs', .cons ⟨rfl, rfl, rfl⟩ hrs', ?_⟩
        rw [List.zipWith_cons_cons, genPermLoopGmw, genPermLoop]
        simp only [x1, x2, x3, x4, ok_bind, err_bind]
      | ok p4 =>
      obtain ⟨b0, b1, o0, o1⟩ := p4
      cases x5 : colBytes o0 with
      | error e =>
        refine ⟨q0 :: rs', .cons ⟨rfl, rfl, rfl⟩ hrs', ?_⟩
        rw [List.zipWith_cons_cons, genPermLoopGmw, genPermLoop]
        simp only [x1, x2, x3, x4, x5, ok_bind, err_bind]
      | ok ssk0 =>
      cases x6 : colBytes o1 with
      | error e =>
        refine ⟨q0 :: rs', .cons ⟨rfl, rfl, rfl⟩ hrs', ?_⟩
        rw [List.zipWith_cons_cons, genPermLoopGmw, genPermLoop]
        simp only [x1, x2, x3, x4, x5, x6, ok_bind, err_bind]
      | ok ssk1 =>
      obtain ⟨oh, mask, e7⟩ := genBitPermGmw_eq hn hn2 h1 hc ha (hr _ List.mem_cons_self) ssk0 ssk1
      dsimp only at e7
      cases x7 : genBitPerm n L ssk0 ssk1 ⟨oh, r.inj, r.otA, r.otB, mask⟩ with
      | error e =>
        refine ⟨⟨oh, r.inj, r.otA, r.otB, mask⟩ :: rs', .cons ⟨rfl, rfl, rfl⟩ hrs', ?_⟩
        rw [List.zipWith_cons_cons, genPermLoopGmw, genPermLoop]
        simp only [x1, x2, x3, ok_bind, x4, x5, x6, e7, x7, err_bind]
      | ok p7 =>
      obtain ⟨p0, p1⟩ := p7
      cases x8 : ComposedPerm.composeBoth b0 b1 p0 p1 with
      | error e =>
        refine ⟨⟨oh, r.inj, r.otA, r.otB, mask⟩ :: rs', .cons ⟨rfl, rfl, rfl⟩ hrs', ?_⟩
        rw [List.zipWith_cons_cons, genPermLoopGmw, genPermLoop]
        simp only [x1, x2, x3, ok_bind, x4, x5, x6, e7, x7, x8, err_bind]
      | ok p8 =>
      obtain ⟨y0, y1, d0', d1'⟩ := p8
      obtain ⟨rs, hrs, e9⟩ := ih rest (kIdx + L) d0' d1' fun s hs => hr s (List.mem_cons_of_mem _ hs)
      refine ⟨⟨oh, r.inj, r.otA, r.otB, mask⟩ :: rs, .cons ⟨rfl, rfl, rfl⟩ hrs, ?_⟩
      rw [List.zipWith_cons_cons, genPermLoopGmw, genPermLoop]
      simp only [x1, x2, x3, ok_bind, x4, x5, x6, e7, x7, x8]
      exact e9

/-- The sort by GMW is the sort of the functionality for some randomness. -/
theorem genPermGmw_eq {hot add : Cir} {n bits L : Nat} (hn : 0 < n) (hn2 : n ≤ 2 ^ 32) (h1 : 1 ≤ L) (hc : L ≠ 1 → HotCir L hot)
    (ha : AddCir (sumBits n) add) (k0 k1 : BinMatrix) {first : RoundEnv} (hf : first.Ok hot add n L)
    {rest : List (ComposedPerm × ComposedPerm × RoundEnv)} (hr : ∀ s ∈ rest, s.2.2.Ok hot add n L) :
    ∃ (q : RoundRnd) (rs : List RoundRnd), Stands first q ∧ List.Forall₂ (fun s q => Stands s.2.2 q) rest rs ∧
      genPermGmw hot add n bits L k0 k1 first rest = genPerm n bits L k0 k1 q (List.zipWith (fun s q => (s.1, s.2.1, q)) rest rs) := by
  obtain ⟨rs', hrs', -⟩ := genPermLoopGmw_eq hn hn2 h1 hc ha k0.mat k1.mat 0 rest 0 [] [] hr
  let q0 : RoundRnd := ⟨fun _ _ => false, first.inj, first.otA, first.otB, fun _ => 0⟩
  unfold genPermGmw genPerm
  cases x1 : checkKey n bits k0 with
  | error e => exact ⟨q0, rs', ⟨rfl, rfl, rfl⟩, hrs', rfl⟩
  | ok _ =>
  cases x2 : checkKey n bits k1 with
  | error e => exact ⟨q0, rs', ⟨rfl, rfl, rfl⟩, hrs', rfl⟩
  | ok _ =>
  cases x3 : extract 0 L k0.mat with
  | error e => exact ⟨q0, rs', ⟨rfl, rfl, rfl⟩, hrs', rfl⟩
  | ok sk0 =>
  cases x4 : extract 0 L k1.mat with
  | error e => exact ⟨q0, rs', ⟨rfl, rfl, rfl⟩, hrs', rfl⟩
  | ok sk1 =>
  simp only [ok_bind]
  by_cases hz : divCeil bits L = 0
  · simp only [if_pos hz]
    exact ⟨q0, rs', ⟨rfl, rfl, rfl⟩, hrs', trivial⟩
  simp only [if_neg hz]
  obtain ⟨oh, mask, e⟩ := genBitPermGmw_eq hn hn2 h1 hc ha hf sk0 sk1
  rw [e]
  cases x5 : genBitPerm n L sk0 sk1 ⟨oh, first.inj, first.otA, first.otB, mask⟩ with
  | error e' => exact ⟨_, rs', ⟨rfl, rfl, rfl⟩, hrs', by rw [x5]; rfl⟩
  | ok p =>
  obtain ⟨d0, d1⟩ := p
  obtain ⟨rs, hrs, e'⟩ := genPermLoopGmw_eq hn hn2 h1 hc ha k0.mat k1.mat (divCeil bits L - 1) rest L d0 d1 hr
  refine ⟨⟨oh, first.inj, first.otA, first.otB, mask⟩, rs, ⟨rfl, rfl, rfl⟩, hrs, ?_⟩
  rw [x5]
  simp only [ok_bind]
  exact e'

end Radix
end SecJoin
