import Verif.Prf.LowMC
import Mathlib.Data.ZMod.Basic
import Mathlib.LinearAlgebra.Matrix.Rank
import Mathlib.LinearAlgebra.Matrix.NonsingularInverse
/-!
# Lemmas about LowMC: the cipher's layers and Gaussian elimination
-/
namespace SecJoin
namespace LowMC

/-! ## Bits -/

theorem getLsbD_setBit {x : BitVec n} {i : Nat} (hi : i < n) (v : Bool) (j : Nat) :
    (setBit x i v).getLsbD j = if j = i then v else x.getLsbD j := by
  unfold setBit
  by_cases hj : j = i
  · subst hj
    cases v <;> simp [hi, BitVec.getLsbD_twoPow]
  · have h' : ¬ i = j := fun h => hj h.symm
    cases v
    · simp only [Bool.false_eq_true, if_false, BitVec.getLsbD_and, BitVec.getLsbD_not, BitVec.getLsbD_twoPow, hj, h', decide_false,
        Bool.and_false, Bool.not_false, Bool.and_true]
      by_cases hb : j < n
      · simp [hb]
      · simp [hb, BitVec.getLsbD_of_ge x j (by omega)]
    · simp [hj, h', BitVec.getLsbD_twoPow]

/-- Filling a block bit by bit. -/
theorem fillBits (n : Nat) (f : Nat → Bool) {g : BitVec n → Nat → Res (BitVec n)}
    (hg : ∀ t i, i < n → g t i = .ok (setBit t i (f i))) : ∀ m, m ≤ n → ∃ t : BitVec n,
    (List.range m).foldlM g 0 = .ok t ∧ ∀ j, t.getLsbD j = (decide (j < m) && f j)
  | 0, _ => ⟨0, rfl, by simp⟩
  | m + 1, hm => by
    obtain ⟨t, ht, hb⟩ := fillBits n f hg m (by omega)
    refine ⟨setBit t m (f m), ?_, ?_⟩
    · rw [List.range_succ, List.foldlM_append, ht, ok_bind]
      simp only [List.foldlM_cons, List.foldlM_nil]
      rw [hg _ _ (by omega)]; rfl
    · intro j
      rw [getLsbD_setBit (by omega), hb]
      by_cases hj : j = m
      · subst hj; simp
      · have : (j < m + 1) ↔ j < m := by omega
        simp [hj, this]

/-! ## The substitution layer -/

/-- The three bits of box `j`. -/
def chunk (m : BitVec n) (j : Nat) : Nat := ((m >>> (3 * j)) &&& BitVec.ofNat n 7).toNat

theorem chunk_testBit {m : BitVec n} {boxes j : Nat} (hb : 3 * boxes ≤ n) (hj : j < boxes) (t : Nat) :
    (chunk m j).testBit t = (decide (t < 3) && m.getLsbD (3 * j + t)) := by
  unfold chunk
  rw [BitVec.testBit_toNat, BitVec.getLsbD_and, BitVec.getLsbD_ushiftRight, BitVec.getLsbD_ofNat]
  have h7 : Nat.testBit 7 t = decide (t < 3) := by
    rw [show (7 : Nat) = 2 ^ 3 - 1 from rfl, Nat.testBit_two_pow_sub_one]
  rw [h7]
  by_cases ht : t < 3
  · have : t < n := by omega
    simp [ht, this]
  · simp [ht]

theorem chunk_lt {m : BitVec n} {boxes j : Nat} (hb : 3 * boxes ≤ n) (hj : j < boxes) : chunk m j < 8 := by
  refine Nat.lt_pow_two_of_testBit (n := 3) _ fun i hi => ?_
  rw [chunk_testBit hb hj]
  simp; omega

theorem substitute_ok (box : List Nat) (hl : box.length = 8) (h8 : ∀ x ∈ box, x < 8) {boxes : Nat} (m : BitVec n) (hb : 3 * boxes ≤ n) :
    ∃ t, substitute box boxes m = .ok t ∧ ∀ q, q < n →
      t.getLsbD q = if q < 3 * boxes then (box.getD (chunk m (q / 3)) 0).testBit (q % 3) else m.getLsbD q := by
  have key : ∀ i, i ≤ boxes → ∃ t : BitVec n, (List.range' 1 i).foldlM (fun temp i => do
      let s ← rd box ((m >>> (3 * (boxes - i))) &&& BitVec.ofNat n 7).toNat
      .ok ((temp <<< 3) ^^^ BitVec.ofNat n s)) (m >>> (3 * boxes)) = .ok t ∧ ∀ q, q < n →
      t.getLsbD q = if q < 3 * i then (box.getD (chunk m (boxes - i + q / 3)) 0).testBit (q % 3)
        else m.getLsbD (q - 3 * i + 3 * boxes) := by
    intro i
    induction i with
    | zero =>
      intro _
      refine ⟨_, rfl, fun q hq => ?_⟩
      rw [BitVec.getLsbD_ushiftRight]
      simp [Nat.add_comm]
    | succ i ih =>
      intro hi
      obtain ⟨t, ht, hq⟩ := ih (by omega)
      have hc : chunk m (boxes - (i + 1)) < box.length := by rw [hl]; exact chunk_lt hb (by omega)
      refine ⟨(t <<< 3) ^^^ BitVec.ofNat n (box.getD (chunk m (boxes - (i + 1))) 0), ?_, ?_⟩
      · rw [List.range'_concat, List.foldlM_append, ht, ok_bind]
        simp only [List.foldlM_cons, List.foldlM_nil]
        rw [show 1 + 1 * i = i + 1 by omega]
        rw [show ((m >>> (3 * (boxes - (i + 1)))) &&& BitVec.ofNat n 7).toNat = chunk m (boxes - (i + 1)) from rfl, rd_ok hc, ok_bind,
          List.getD_eq_getElem?_getD, List.getElem?_eq_getElem hc]
        rfl
      · intro q hqn
        rw [BitVec.getLsbD_xor, BitVec.getLsbD_shiftLeft, BitVec.getLsbD_ofNat]
        have hs : box.getD (chunk m (boxes - (i + 1))) 0 < 8 := by
          rw [List.getD_eq_getElem?_getD, List.getElem?_eq_getElem hc]
          exact h8 _ (List.getElem_mem hc)
        by_cases h3 : q < 3
        · have e1 : q / 3 = 0 := by omega
          have e2 : q % 3 = q := by omega
          have e3 : q < 3 * (i + 1) := by omega
          simp [h3, hqn, e1, e2, e3]
        · have hz : Nat.testBit (box.getD (chunk m (boxes - (i + 1))) 0) q = false :=
            Nat.testBit_lt_two_pow (lt_of_lt_of_le hs (by
              calc 8 = 2 ^ 3 := rfl
                _ ≤ 2 ^ q := Nat.pow_le_pow_right (by omega) (by omega)))
          rw [hz, hq (q - 3) (by omega)]
          simp only [hqn, h3, decide_true, decide_false, Bool.not_false, Bool.true_and, Bool.and_false, Bool.xor_false]
          by_cases h4 : q < 3 * (i + 1)
          · rw [if_pos (by omega), if_pos h4, show boxes - i + (q - 3) / 3 = boxes - (i + 1) + q / 3 by omega,
              show (q - 3) % 3 = q % 3 by omega]
          · rw [if_neg (by omega), if_neg h4, show q - 3 - 3 * i = q - 3 * (i + 1) by omega]
  obtain ⟨t, ht, hq⟩ := key boxes (le_refl _)
  refine ⟨t, ht, fun q hqn => ?_⟩
  rw [hq q hqn]
  by_cases h : q < 3 * boxes
  · rw [if_pos h, if_pos h, Nat.sub_self, Nat.zero_add]
  · rw [if_neg h, if_neg h, show q - 3 * boxes + 3 * boxes = q by omega]

theorem substitute_inv {boxes : Nat} (m : BitVec n) (hb : 3 * boxes ≤ n) :
    ∃ t, substitute sbox boxes m = .ok t ∧ substitute invSbox boxes t = .ok m := by
  obtain ⟨t, ht, hq⟩ := substitute_ok sbox rfl (by decide) m hb
  obtain ⟨u, hu, hv⟩ := substitute_ok invSbox rfl (by decide) t hb
  refine ⟨t, ht, ?_⟩
  rw [hu]
  congr 1
  apply BitVec.eq_of_getLsbD_eq
  intro q hqn
  rw [hv q hqn]
  by_cases h : q < 3 * boxes
  · rw [if_pos h]
    have hj : q / 3 < boxes := by omega
    have e : chunk t (q / 3) = sbox.getD (chunk m (q / 3)) 0 := by
      apply Nat.eq_of_testBit_eq
      intro s
      rw [chunk_testBit hb hj]
      by_cases hs : s < 3
      · rw [hq _ (by omega), if_pos (by omega), show (3 * (q / 3) + s) / 3 = q / 3 by omega, show (3 * (q / 3) + s) % 3 = s by omega]
        simp [hs]
      · have : sbox.getD (chunk m (q / 3)) 0 < 2 ^ s := by
          have h1 : ∀ x < 8, sbox.getD x 0 < 8 := by decide
          refine lt_of_lt_of_le (h1 _ (chunk_lt hb hj)) ?_
          calc 8 = 2 ^ 3 := rfl
            _ ≤ 2 ^ s := Nat.pow_le_pow_right (by omega) (by omega)
        rw [Nat.testBit_lt_two_pow this]
        simp [hs]
    have h2 : ∀ x < 8, invSbox.getD (sbox.getD x 0) 0 = x := by decide
    rw [e, h2 _ (chunk_lt hb hj), chunk_testBit hb hj]
    rw [show 3 * (q / 3) + q % 3 = q by omega]
    have : q % 3 < 3 := by omega
    simp [this]
  · rw [if_neg h, hq q hqn, if_neg h]

/-! ## The linear layer -/

/-- A block as a vector over the field of two elements. -/
def vec (x : BitVec n) : Fin n → ZMod 2 := fun j => if x.getLsbD j then 1 else 0

theorem vec_xor (x y : BitVec n) : vec (x ^^^ y) = vec x + vec y := by
  funext j
  simp only [vec, BitVec.getLsbD_xor, Pi.add_apply]
  cases x.getLsbD j <;> cases y.getLsbD j <;> decide

theorem vec_inj {x y : BitVec n} (h : vec x = vec y) : x = y := by
  apply BitVec.eq_of_getLsbD_eq
  intro i hi
  have := congrFun h ⟨i, hi⟩
  simp only [vec] at this
  cases hx : x.getLsbD i <;> cases hy : y.getLsbD i <;> simp_all

/-- A list of rows as a matrix with `m` rows over the field of two elements. -/
def toMat (m : Nat) (M : Mtx n) : Matrix (Fin m) (Fin n) (ZMod 2) := fun i j => if (M.getD i 0).getLsbD j then 1 else 0

theorem count_sum (x : BitVec n) : ((count x : Nat) : ZMod 2) = ∑ j : Fin n, (if x.getLsbD j then 1 else 0) := by
  unfold count
  rw [Fin.sum_univ_eq_sum_range (fun j => if x.getLsbD j then (1 : ZMod 2) else 0) n, Finset.sum_ite]
  simp only [Finset.sum_const, nsmul_eq_mul, mul_one, mul_zero, add_zero]
  congr 1
  have : (List.range n).filter x.getLsbD = (List.range n).filter fun j => decide (x.getLsbD j = true) := by
    congr 1; funext j; simp
  rw [this]
  rfl

theorem mul_ok {n k : Nat} (M : Mtx k) (hM : n ≤ M.length) (m : BitVec k) :
    ∃ t, mul n M m = .ok t ∧ vec t = (toMat n M).mulVec (vec m) := by
  obtain ⟨t, ht, hb⟩ := fillBits n (fun i => count (m &&& M.getD i 0) % 2 == 1) (g := fun t i => do
    let row ← rd M i
    .ok (setBit t i (count (m &&& row) % 2 == 1))) (by
      intro t i hi
      rw [rd_ok (by omega), ok_bind, List.getD_eq_getElem?_getD, List.getElem?_eq_getElem (show i < M.length by omega)]
      rfl) n (le_refl _)
  refine ⟨t, ht, ?_⟩
  funext i
  simp only [vec, hb, Matrix.mulVec, dotProduct, i.isLt, decide_true, Bool.true_and]
  have e : ∑ j : Fin k, toMat n M i j * (if m.getLsbD j then (1 : ZMod 2) else 0) = ((count (m &&& M.getD i 0) : Nat) : ZMod 2) := by
    rw [count_sum]
    refine Finset.sum_congr rfl fun j _ => ?_
    simp only [toMat, BitVec.getLsbD_and]
    cases (M.getD i 0).getLsbD j <;> cases m.getLsbD j <;> simp
  rw [e]
  have : ∀ c : Nat, (if (c % 2 == 1) = true then (1 : ZMod 2) else 0) = (c : ZMod 2) := by
    intro c
    rw [← ZMod.natCast_mod c 2]
    rcases Nat.mod_two_eq_zero_or_one c with h | h <;> simp [h]
  exact this _

end LowMC
end SecJoin
