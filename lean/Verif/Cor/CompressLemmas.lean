import Verif.Cor.Compress
import Verif.Cor.F4Props
import Verif.Prf.F2Props
import Verif.Prf.SampleProps
import Mathlib.Tactic.IntervalCases
/-!
# Compression of correlations: lemmas
-/
namespace SecJoin
namespace Cor

open Mod3 (Block)
open F2 (mkBlock byteOf getLsbD_mkBlock)
open Simd

/-- Bit `p` of an array of blocks. -/
def bitAt (l : List Block) (p : Nat) : Bool := (l.getD (p / 128) 0).getLsbD (p % 128)

theorem getD_range_map {T : Type} (f : Nat → T) (n i : Nat) (d : T) (h : i < n) : ((List.range n).map f).getD i d = f i := by
  simp [List.getD_eq_getElem?_getD, h]

theorem bitAt_of16 {l : List (BitVec 16)} {p : Nat} (h : p < 128 * (l.length / 8)) :
    bitAt (of16 l) p = (l.getD (p / 16) 0).getLsbD (p % 16) := by
  have h1 : p / 128 < l.length / 8 := by omega
  rw [bitAt, of16, getD_range_map _ _ _ _ h1, getLsbD_mkBlock (by omega)]
  have e1 : 8 * (p / 128) + p % 128 / 16 = p / 16 := by omega
  have e2 : p % 128 % 16 = p % 16 := by omega
  rw [e1, e2]

theorem bitAt_ofBytes {l : List (BitVec 8)} {p : Nat} (h : p < 128 * (l.length / 16)) :
    bitAt (ofBytes l) p = (l.getD (p / 8) 0).getLsbD (p % 8) := by
  have h1 : p / 128 < l.length / 16 := by omega
  rw [bitAt, ofBytes, getD_range_map _ _ _ _ h1, getLsbD_mkBlock (by omega)]
  have e1 : 16 * (p / 128) + p % 128 / 8 = p / 8 := by omega
  have e2 : p % 128 % 8 = p % 8 := by omega
  rw [e1, e2]

theorem length_of16 (l : List (BitVec 16)) : (of16 l).length = l.length / 8 := by simp [of16]
theorem length_ofBytes (l : List (BitVec 8)) : (ofBytes l).length = l.length / 16 := by simp [ofBytes]

theorem getLsbD_mk16 {f : Nat → Bool} {j : Nat} (hj : j < 16) : (mk16 f).getLsbD j = f j := by
  unfold mk16
  rw [BitVec.getLsbD_cast, BitVec.getLsbD_ofBoolListLE]
  simp [List.getD_eq_getElem?_getD, List.getElem?_map, hj]

theorem getLsbD_byteOf {x : Block} {k i : Nat} (hi : i < 8) : (byteOf x k).getLsbD i = x.getLsbD (8 * k + i) := by
  simp [byteOf, hi]

theorem byteOf_shuf_top {k j : Nat} (hj : j < 16) : (byteOf (shuf k) j).getLsbD 7 = (j != k) := by
  rw [getLsbD_byteOf (by omega), shuf, getLsbD_mkBlock (by omega)]
  have e1 : (8 * j + 7) % 8 = 7 := by omega
  have e2 : (8 * j + 7) / 8 = j := by omega
  rw [e1, e2]; simp

theorem byteOf_shuf_self {k : Nat} (hk : k < 16) : byteOf (shuf k) k = 0 := by
  apply BitVec.eq_of_getLsbD_eq
  intro i hi
  rw [getLsbD_byteOf hi, shuf, getLsbD_mkBlock (by omega)]
  have e2 : (8 * k + i) / 8 = k := by omega
  rw [e2]; simp

theorem shuffle_bit {m : Block} {k j : Nat} (hk : k < 16) (hj : j < 16) : (shuffle m (shuf k)).getLsbD (8 * j) = (j == k && m.getLsbD 0) := by
  rw [shuffle, getLsbD_mkBlock (by omega)]
  have e1 : 8 * j / 8 = j := by omega
  rw [e1, byteOf_shuf_top hj]
  by_cases h : j = k
  · subst h; rw [byteOf_shuf_self hj]; simp
  · rw [beq_false_of_ne h, bne_iff_ne.2 h]; rfl

theorem shuffleP_bit {m : Block} {k j : Nat} (hk : k < 16) (hj : j < 16) : (shuffleP m (shuf k)).getLsbD (8 * j) = (j == k && m.getLsbD 0) := by
  rw [shuffleP, getLsbD_mkBlock (by omega)]
  have e1 : 8 * j / 8 = j := by omega
  have e2 : 8 * j % 8 = 0 := by omega
  simp only [e1, e2, byteOf_shuf_top hj]
  by_cases h : j = k
  · subst h
    have e : (byteOf m 0).getLsbD 0 = m.getLsbD 0 := by rw [getLsbD_byteOf (by omega)]
    rw [byteOf_shuf_self hj]
    simpa using e
  · rw [beq_false_of_ne h, bne_iff_ne.2 h]; simp

theorem slli16_bit {v : Block} {j : Nat} (hj : j < 16) : (slli16 7 v).getLsbD (8 * j + 7) = v.getLsbD (8 * j) := by
  rw [slli16, getLsbD_mkBlock (by omega)]
  have : 7 ≤ (8 * j + 7) % 16 := by omega
  simp [this]

theorem tree_bit (a : Nat → Block) (p : Nat) (b : Bool) (j : Nat) (hj : j < 16) (h : ∀ k, k < 16 → (a k).getLsbD p = (j == k && b)) :
    (tree a).getLsbD p = b := by
  simp only [tree, BitVec.getLsbD_xor]
  rw [h 0 (by omega), h 8 (by omega), h 4 (by omega), h 12 (by omega), h 2 (by omega), h 10 (by omega), h 6 (by omega), h 14 (by omega),
    h 1 (by omega), h 9 (by omega), h 5 (by omega), h 13 (by omega), h 3 (by omega), h 11 (by omega), h 7 (by omega), h 15 (by omega)]
  interval_cases j <;> simp

theorem gather_bit {m : Nat → Block} {j : Nat} (hj : j < 16) : (gather m).getLsbD j = (m j).getLsbD 0 := by
  rw [gather, gatherWith, movemask, getLsbD_mk16 hj, slli16_bit hj]
  refine tree_bit _ _ _ j hj fun k hk => ?_
  rw [shuffle_bit hk hj]
  by_cases h : j = k
  · subst h; rfl
  · rw [beq_false_of_ne h]; rfl

theorem maskOne_bit {p : Nat} (hp : p < 128) : maskOne.getLsbD p = decide (p ≠ 0) := by
  simp only [maskOne, BitVec.getLsbD_xor, BitVec.getLsbD_allOnes, hp, decide_true]
  by_cases h : p = 0 <;> simp [h]

theorem ite_bit (c : Bool) (i : Nat) : (if c then 1 else 0 : BitVec 32).getLsbD i = (c && decide (i = 0)) := by
  cases c
  · simp
  · simp [BitVec.getLsbD_one]

/-- Packing of eight bits. -/
theorem pack8_bit {b : Nat → BitVec 32} {c : Nat → Bool} {j : Nat} (hj : j < 8) (h : ∀ k, k < 8 → b k = if c k then 1 else 0) :
    (pack8 b).getLsbD j = c j := by
  unfold pack8
  rw [h 0 (by omega), h 1 (by omega), h 2 (by omega), h 3 (by omega), h 4 (by omega), h 5 (by omega), h 6 (by omega), h 7 (by omega)]
  simp only [BitVec.getLsbD_setWidth, BitVec.getLsbD_xor, BitVec.getLsbD_shiftLeft, ite_bit]
  interval_cases j <;> simp

theorem ite_bit2 (c : Bool) (i : Nat) : (if c then 2 else 0 : BitVec 32).getLsbD i = (c && decide (i = 1)) := by
  cases c
  · simp
  · have e : (2 : BitVec 32) = 1#32 <<< 1 := by decide
    rw [if_pos rfl, e, BitVec.getLsbD_shiftLeft, BitVec.getLsbD_one]
    by_cases h : i = 1
    · simp [h]
    · by_cases h0 : i = 0
      · simp [h0]
      · simp only [h, decide_false, Bool.and_false, Bool.true_and, Bool.and_eq_false_imp, Bool.and_eq_true, decide_eq_true_eq]
        intros
        simp; omega

theorem pack8Msb_bit {b : Nat → BitVec 32} {c : Nat → Bool} {j : Nat} (hj : j < 8) (h : ∀ k, k < 8 → b k = if c k then 2 else 0) :
    (pack8Msb b).getLsbD j = c j := by
  unfold pack8Msb
  rw [h 0 (by omega), h 1 (by omega), h 2 (by omega), h 3 (by omega), h 4 (by omega), h 5 (by omega), h 6 (by omega), h 7 (by omega)]
  simp only [BitVec.getLsbD_setWidth, BitVec.getLsbD_xor, BitVec.getLsbD_shiftLeft, BitVec.getLsbD_ushiftRight, ite_bit2]
  interval_cases j <;> simp

theorem and_one (m : Block) : m &&& 1 = if m.getLsbD 0 then 1 else 0 := by
  apply BitVec.eq_of_getLsbD_eq
  intro i hi
  by_cases h : i = 0
  · subst h; cases e : m.getLsbD 0 <;> simp_all
  · cases e : m.getLsbD 0 <;> simp [h, BitVec.getLsbD_one]

theorem testcOne_eq (m : Block) : testcOne m = if m.getLsbD 0 then 1 else 0 := by
  unfold testcOne
  rw [and_one]
  have e : (~~~m).getLsbD 0 = !m.getLsbD 0 := by simp
  rw [e]
  cases m.getLsbD 0 <;> decide

theorem store32_one (m : Block) : store32 (m &&& 1) = if m.getLsbD 0 then 1 else 0 := by
  rw [and_one]; cases m.getLsbD 0 <;> decide

theorem and_two (m : Block) : m &&& 2 = if m.getLsbD 1 then 2 else 0 := by
  have e : (2 : Block) = 1#128 <<< 1 := by decide
  rw [e]
  apply BitVec.eq_of_getLsbD_eq
  intro i hi
  rw [BitVec.getLsbD_and, F4.one_bit (by omega)]
  by_cases h : i = 1
  · subst h
    cases m.getLsbD 1
    · simp
    · rw [if_pos rfl, F4.one_bit (by omega)]; simp
  · cases m.getLsbD 1
    · simp [h]
    · rw [if_pos rfl, F4.one_bit (by omega)]; simp [h]

theorem store32_two (m : Block) : store32 (m &&& 2) = if m.getLsbD 1 then 2 else 0 := by
  rw [and_two]; cases m.getLsbD 1 <;> decide

end Cor
end SecJoin
