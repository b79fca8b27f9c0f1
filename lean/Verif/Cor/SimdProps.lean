import Verif.Cor.CompressProps
/-!
# Portable versions of the vector instructions: C57

The claim is false of the code for three of the four functions; what holds is proved and the rest refuted.
-/
namespace SecJoin
namespace Cor

open Mod3 (Block)
open F2 (mkBlock byteOf getLsbD_mkBlock)
open Simd

/-- **C57** (shift). The portable shift of 16-bit lanes is the instruction. -/
theorem C57_slli {s : Nat} (hs : s < 16) (v : Block) : slli16P s v = slli16 s v := by
  apply BitVec.eq_of_getLsbD_eq
  intro p hp
  rw [slli16P, slli16, getLsbD_mkBlock hp, getLsbD_mkBlock hp, BitVec.getLsbD_shiftLeft]
  by_cases h : s ≤ p % 16
  · have e : 16 * (p / 16) + (p % 16 - s) = p - s := by omega
    have h1 : p % 16 < 16 := by omega
    have h2 : p % 16 - s < 16 := by omega
    have h3 : ¬ p % 16 < s := by omega
    simp only [BitVec.getLsbD_extractLsb', e, h, h1, h2, h3, decide_true, decide_false, Bool.not_false, Bool.true_and]
  · have h3 : p % 16 < s := by omega
    simp [h, h3]

/-- **C57** (shuffle), in part: the portable shuffle is the instruction when no index byte is negative. -/
theorem C57_shuffle_partial (a b : Block) (h : ∀ j, j < 16 → (byteOf b j).getLsbD 7 = false) : shuffleP a b = shuffle a b := by
  apply BitVec.eq_of_getLsbD_eq
  intro p hp
  rw [shuffleP, shuffle, getLsbD_mkBlock hp, getLsbD_mkBlock hp]
  have e : ∀ x : BitVec 8, (x &&& 15).toNat = x.toNat % 16 := by
    intro x
    rw [BitVec.toNat_and]
    exact Nat.and_two_pow_sub_one_eq_mod x.toNat 4
  have h8 : p % 8 < 8 := by omega
  have f : (~~~(if false = true then 1 else 0 : BitVec 8)).getLsbD (p % 8) = true := by
    simp only [Bool.false_eq_true, if_false, BitVec.getLsbD_not, h8, decide_true, Bool.true_and]
    simp
  simp only [h (p / 8) (by omega), e, BitVec.getLsbD_and, getLsbD_byteOf h8, f]
  simp

/-- For a negative index byte the instruction gives zero; the portable version only clears the lowest bit. -/
theorem C57_shuffle_false : shuffle (BitVec.allOnes 128) (BitVec.allOnes 128) = 0 ∧
    (shuffleP (BitVec.allOnes 128) (BitVec.allOnes 128)).getLsbD 1 = true ∧
    shuffleP (BitVec.allOnes 128) (BitVec.allOnes 128) ≠ shuffle (BitVec.allOnes 128) (BitVec.allOnes 128) := by
  have h1 : shuffle (BitVec.allOnes 128) (BitVec.allOnes 128) = 0 := by
    apply BitVec.eq_of_getLsbD_eq
    intro p hp
    rw [shuffle, getLsbD_mkBlock hp, getLsbD_byteOf (by omega), BitVec.getLsbD_allOnes]
    simp [show 8 * (p / 8) + 7 < 128 by omega]
  have h2 : (shuffleP (BitVec.allOnes 128) (BitVec.allOnes 128)).getLsbD 1 = true := by
    rw [shuffleP, getLsbD_mkBlock (by omega)]; decide
  refine ⟨h1, h2, fun h => ?_⟩
  rw [h, h1] at h2
  simp at h2

/-- What the portable `movemask_epi8` computes: every second bit of the first byte. -/
theorem movemaskP_bit (v : Block) {j : Nat} (hj : j < 16) : (movemaskP v).getLsbD j = (decide (j < 4) && v.getLsbD (2 * j)) := by
  have hb : ∀ i, (byteOf v 0).getLsbD i = (decide (i < 8) && v.getLsbD i) := by
    intro i
    simp [byteOf]
  have one : ∀ i k, (1#32 <<< k).getLsbD i = (decide (i < 32) && decide (i = k)) := by
    intro i k
    rw [BitVec.getLsbD_shiftLeft, BitVec.getLsbD_one]
    by_cases h : i = k
    · simp [h]
    · by_cases h2 : i < k
      · simp [h, h2]
      · simp [h, show ¬ i - k = 0 by omega]
  simp only [movemaskP, List.range, List.range.loop, List.foldl, BitVec.getLsbD_setWidth, BitVec.getLsbD_or, BitVec.getLsbD_and,
    BitVec.getLsbD_ushiftRight, one, hb]
  interval_cases j <;> simp

/-- The portable `movemask_epi8` is not the instruction. -/
theorem C57_movemask_false : movemaskP (BitVec.allOnes 128) ≠ movemask (BitVec.allOnes 128) := by
  intro h
  have := congrArg (fun x => x.getLsbD 5) h
  simp only [movemaskP_bit _ (show 5 < 16 by omega), movemask, getLsbD_mk16 (show 5 < 16 by omega)] at this
  simp at this

/-- The portable `cmpeq_epi16` is undefined for all operands: it writes past the block. -/
theorem C57_cmpeq_false (a b r : Block) : cmpeqP a b r = .error .ub := rfl

/-- Sixteen blocks to sixteen bits with all portable versions. -/
def gatherP : (Nat → Block) → BitVec 16 := gatherWith shuffleP slli16P movemaskP

/-- **C57** (use), in part: with the instruction for `movemask_epi8`, the portable shuffle and shift give the same bits in compression. -/
theorem C57_gather_partial (m : Nat → Block) : gatherWith shuffleP slli16P movemask m = gather m := by
  apply BitVec.eq_of_getLsbD_eq
  intro j hj
  rw [gather_bit hj, gatherWith, movemask, getLsbD_mk16 hj, C57_slli (by omega), slli16_bit hj]
  refine tree_bit _ _ _ j hj fun k hk => ?_
  rw [shuffleP_bit hk hj]
  by_cases h : j = k
  · subst h; rfl
  · rw [beq_false_of_ne h]; rfl

theorem gatherP_zero (m : Nat → Block) : gatherP m = 0 := by
  apply BitVec.eq_of_getLsbD_eq
  intro j hj
  rw [gatherP, gatherWith, movemaskP_bit _ hj, C57_slli (by omega), slli16]
  by_cases h : j < 4
  · rw [getLsbD_mkBlock (by omega)]
    have : ¬ 7 ≤ 2 * j % 16 := by omega
    simp [this]
  · simp [h]

/-- The consequence: without SSE the sender's additive and multiplicative bits and the receiver's additive bits are all zero, whatever the
raw correlation and the hash. -/
theorem C57_ole_false (H : Block → Block) (delta : Block) {A B : List Block} {n : Nat} (hn : 0 < n) (hA : A.length = 128 * n)
    (hB : B.length = 128 * n) : ∃ sa sm ra rm, oleSend gatherP H delta B n n = .ok (sa, sm) ∧ oleRecv gatherP H A n n = .ok (ra, rm) ∧
      ∀ p, p < 128 * n → bitAt sa p = false ∧ bitAt sm p = false ∧ bitAt ra p = false := by
  have c1 : (n * 128 != 128 * n) = false := by simp [Nat.mul_comm]
  have hz : ∀ (l : List (BitVec 16)) p, (∀ x ∈ l, x = 0) → l.length = 128 * n / 16 → p < 128 * n → bitAt (of16 l) p = false := by
    intro l p h hl hp
    rw [bitAt_of16 (by omega)]
    have hi : p / 16 < l.length := by omega
    rw [List.getD_eq_getElem?_getD, List.getElem?_eq_getElem hi, Option.getD_some, h _ (List.getElem_mem hi)]
    simp
  have e1 : ∃ r, r = oleSend gatherP H delta B n n := ⟨_, rfl⟩
  have e2 : ∃ r, r = oleRecv gatherP H A n n := ⟨_, rfl⟩
  obtain ⟨r1, e1⟩ := e1
  obtain ⟨r2, e2⟩ := e2
  have e1' := e1
  have e2' := e2
  simp only [oleSend, hB, c1, throwIf_false, ok_bind] at e1'
  simp only [oleRecv, hA, c1, throwIf_false, ok_bind, if_neg (show 128 * n ≠ 0 by omega)] at e2'
  refine ⟨_, _, _, _, e1.symm.trans e1', e2.symm.trans e2', fun p hp => ⟨?_, ?_, ?_⟩⟩
  · exact hz _ p (by intro x hx; obtain ⟨t, -, rfl⟩ := List.mem_map.1 hx; exact gatherP_zero _) (by simp) hp
  · refine hz _ p ?_ (by simp) hp
    simp only [gatherP_zero]
    intro x hx
    obtain ⟨i, hi, rfl⟩ := List.mem_iff_getElem.1 hx
    simp
  · exact hz _ p (by intro x hx; obtain ⟨t, -, rfl⟩ := List.mem_map.1 hx; exact gatherP_zero _) (by simp) hp

/-- Beside it: with the instructions, some sender's bit is one. -/
example : ∃ (H : Block → Block) (delta : Block) (sa sm : List Block), oleSend gather H delta (exB 1) 1 1 = .ok (sa, sm) ∧ bitAt sm 5 = true := by
  obtain ⟨h, hl, -⟩ := exRaw 2 1
  obtain ⟨sa, sm, ra, rm, e, -, -, -, -, -, -, -, hs⟩ := C44_compress (fun x => x >>> 1) 2 (by omega) hl h
  refine ⟨_, 2, sa, sm, e, ?_⟩
  rw [hs 5 (by omega), exB, getD_range_map _ _ _ _ (by omega)]
  decide

end Cor
end SecJoin
