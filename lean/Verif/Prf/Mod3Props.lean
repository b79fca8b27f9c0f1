import Verif.Prf.Mod3
/-!
# Bit-sliced arithmetic modulo three: C47
-/
namespace SecJoin
namespace Mod3

/-- The digit at position `p`. -/
def trit (x1 x0 : Block) (p : Nat) : Nat := 2 * (x1.getLsbD p).toNat + (x0.getLsbD p).toNat

/-- The bit at position `p`. -/
def bit (y : Block) (p : Nat) : Nat := (y.getLsbD p).toNat

/-- Every digit is 0, 1 or 2. -/
def Valid (x1 x0 : Block) : Prop := ∀ p, p < 128 → trit x1 x0 p < 3

theorem valid_of_trit {x1 x0 : Block} {f : Nat → Nat} (h : ∀ p, p < 128 → trit x1 x0 p = f p % 3) : Valid x1 x0 := by
  intro p hp
  rw [h p hp]
  omega

/-! ## Single blocks -/

/-- C47: addition. -/
theorem C47_add {x1 x0 y1 y0 : Block} (hx : Valid x1 x0) (hy : Valid y1 y0) :
    ∀ p, p < 128 → trit (add x1 x0 y1 y0).1 (add x1 x0 y1 y0).2 p = (trit x1 x0 p + trit y1 y0 p) % 3 := by
  intro p hp
  have h1 := hx p hp
  have h2 := hy p hp
  revert h1 h2
  simp only [trit, add, andnot, BitVec.getLsbD_and, BitVec.getLsbD_not, BitVec.getLsbD_xor, hp, decide_true, Bool.true_and]
  cases x1.getLsbD p <;> cases x0.getLsbD p <;> cases y1.getLsbD p <;> cases y0.getLsbD p <;> decide

/-- C47: subtraction. -/
theorem C47_sub {x1 x0 y1 y0 : Block} (hx : Valid x1 x0) (hy : Valid y1 y0) :
    ∀ p, p < 128 → trit (sub x1 x0 y1 y0).1 (sub x1 x0 y1 y0).2 p = (trit x1 x0 p + 3 - trit y1 y0 p) % 3 := by
  intro p hp
  have h1 := hx p hp
  have h2 := hy p hp
  revert h1 h2
  simp only [trit, sub, add, andnot, BitVec.getLsbD_and, BitVec.getLsbD_not, BitVec.getLsbD_xor, hp, decide_true, Bool.true_and]
  cases x1.getLsbD p <;> cases x0.getLsbD p <;> cases y1.getLsbD p <;> cases y0.getLsbD p <;> decide

/-- C47: addition of a bit. -/
theorem C47_addBit {x1 x0 y0 : Block} (hx : Valid x1 x0) :
    ∀ p, p < 128 → trit (addBit x1 x0 y0).1 (addBit x1 x0 y0).2 p = (trit x1 x0 p + bit y0 p) % 3 := by
  intro p hp
  have h1 := hx p hp
  revert h1
  simp only [trit, bit, addBit, andnot, BitVec.getLsbD_and, BitVec.getLsbD_not, BitVec.getLsbD_xor, hp, decide_true, Bool.true_and]
  cases x1.getLsbD p <;> cases x0.getLsbD p <;> cases y0.getLsbD p <;> decide

/-- C47: subtraction of a bit. -/
theorem C47_subBit {x1 x0 y0 : Block} (hx : Valid x1 x0) :
    ∀ p, p < 128 → trit (subBit x1 x0 y0).1 (subBit x1 x0 y0).2 p = (trit x1 x0 p + 3 - bit y0 p) % 3 := by
  intro p hp
  have h1 := hx p hp
  revert h1
  simp only [trit, bit, subBit, andnot, BitVec.getLsbD_and, BitVec.getLsbD_not, BitVec.getLsbD_xor, hp, decide_true, Bool.true_and]
  cases x1.getLsbD p <;> cases x0.getLsbD p <;> cases y0.getLsbD p <;> decide

/-- C47: addition of a bit in place. -/
theorem C47_incBit {x1 x0 y0 : Block} (hx : Valid x1 x0) :
    ∀ p, p < 128 → trit (incBit x1 x0 y0).1 (incBit x1 x0 y0).2 p = (trit x1 x0 p + bit y0 p) % 3 := by
  intro p hp
  have h1 := hx p hp
  revert h1
  simp only [trit, bit, incBit, andnot, BitVec.getLsbD_and, BitVec.getLsbD_not, BitVec.getLsbD_xor, hp, decide_true, Bool.true_and]
  cases x1.getLsbD p <;> cases x0.getLsbD p <;> cases y0.getLsbD p <;> decide

/-! ## Spans -/

/-- The outputs do not overlap, and no operand is read after it was overwritten at a smaller index. Operands may be equal
to an output. -/
structure Safe (n z1 z0 : Nat) (rs : List Nat) : Prop where
  out : ∀ i, i < n → ∀ j, j < n → z1 + i ≠ z0 + j
  ops : ∀ r ∈ rs, ∀ i, i < n → ∀ j, j < i → r + i ≠ z1 + j ∧ r + i ≠ z0 + j

theorem spanOp_ok {f : List Block → Block × Block} {n z1 z0 : Nat} {rs : List Nat} (h : Safe n z1 z0 rs) (m : Mem) :
    ∀ k, k ≤ n → (∀ i, i < k → spanOp f z1 z0 rs k m (z1 + i) = (f (rs.map fun r => m (r + i))).1 ∧
        spanOp f z1 z0 rs k m (z0 + i) = (f (rs.map fun r => m (r + i))).2) ∧
      ∀ a, (∀ i, i < k → a ≠ z1 + i ∧ a ≠ z0 + i) → spanOp f z1 z0 rs k m a = m a := by
  intro k
  induction k with
  | zero => intro _; exact ⟨fun i hi => absurd hi (by omega), fun _ _ => rfl⟩
  | succ k ih =>
    intro hk
    obtain ⟨h1, h2⟩ := ih (by omega)
    have hr : (rs.map fun r => spanOp f z1 z0 rs k m (r + k)) = rs.map fun r => m (r + k) := by
      apply List.map_congr_left
      intro r hr
      exact h2 _ (fun j hj => h.ops r hr k (by omega) j hj)
    constructor
    · intro i hi
      have hz := h.out k (by omega) i (by omega)
      have hz' := h.out i (by omega) k (by omega)
      simp only [spanOp, hr, Mem.set]
      by_cases he : i = k
      · subst he
        rw [if_neg hz', if_pos rfl, if_pos rfl]
        exact ⟨rfl, rfl⟩
      · obtain ⟨g1, g2⟩ := h1 i (by omega)
        refine ⟨?_, ?_⟩
        · rw [if_neg hz', if_neg (by omega), g1]
        · rw [if_neg (by omega), if_neg (fun hc => hz hc.symm), g2]
    · intro a ha
      have hak := ha k (by omega)
      simp only [spanOp, Mem.set]
      rw [if_neg hak.2, if_neg hak.1, h2 a (fun i hi => ha i (by omega))]

/-- What a span operation on two digits has to do: all `n` blocks of the result have the digits `g`, and nothing else
changes. -/
def SpanSpec (n z1 z0 : Nat) (m m' : Mem) (g : Nat → Nat → Nat) : Prop :=
  (∀ i, i < n → ∀ p, p < 128 → trit (m' (z1 + i)) (m' (z0 + i)) p = g i p % 3) ∧
  ∀ a, (∀ i, i < n → a ≠ z1 + i ∧ a ≠ z0 + i) → m' a = m a

/-- C47: addition of spans of any length; the result may be stored over an operand. -/
theorem C47_addSpan {n z1 z0 x1 x0 y1 y0 : Nat} {m : Mem} (h : Safe n z1 z0 [x1, x0, y1, y0])
    (hx : ∀ i, i < n → Valid (m (x1 + i)) (m (x0 + i))) (hy : ∀ i, i < n → Valid (m (y1 + i)) (m (y0 + i))) :
    SpanSpec n z1 z0 m (addSpan n z1 z0 x1 x0 y1 y0 m) fun i p =>
      trit (m (x1 + i)) (m (x0 + i)) p + trit (m (y1 + i)) (m (y0 + i)) p := by
  obtain ⟨h1, h2⟩ := spanOp_ok (f := with4 add) h m n (by omega)
  refine ⟨fun i hi p hp => ?_, h2⟩
  obtain ⟨g1, g2⟩ := h1 i hi
  unfold addSpan
  rw [g1, g2]
  exact C47_add (hx i hi) (hy i hi) p hp

/-- C47: subtraction of spans. -/
theorem C47_subSpan {n z1 z0 x1 x0 y1 y0 : Nat} {m : Mem} (h : Safe n z1 z0 [x1, x0, y0, y1])
    (hx : ∀ i, i < n → Valid (m (x1 + i)) (m (x0 + i))) (hy : ∀ i, i < n → Valid (m (y1 + i)) (m (y0 + i))) :
    SpanSpec n z1 z0 m (subSpan n z1 z0 x1 x0 y1 y0 m) fun i p =>
      trit (m (x1 + i)) (m (x0 + i)) p + 3 - trit (m (y1 + i)) (m (y0 + i)) p := by
  obtain ⟨h1, h2⟩ := spanOp_ok (f := with4 add) h m n (by omega)
  refine ⟨fun i hi p hp => ?_, h2⟩
  obtain ⟨g1, g2⟩ := h1 i hi
  unfold subSpan addSpan
  rw [g1, g2]
  exact C47_sub (hx i hi) (hy i hi) p hp

/-- C47: addition of bits. -/
theorem C47_addBitSpan {n z1 z0 x1 x0 y0 : Nat} {m : Mem} (h : Safe n z1 z0 [x1, x0, y0])
    (hx : ∀ i, i < n → Valid (m (x1 + i)) (m (x0 + i))) :
    SpanSpec n z1 z0 m (addBitSpan n z1 z0 x1 x0 y0 m) fun i p => trit (m (x1 + i)) (m (x0 + i)) p + bit (m (y0 + i)) p := by
  obtain ⟨h1, h2⟩ := spanOp_ok (f := with3 addBit) h m n (by omega)
  refine ⟨fun i hi p hp => ?_, h2⟩
  obtain ⟨g1, g2⟩ := h1 i hi
  unfold addBitSpan
  rw [g1, g2]
  exact C47_addBit (hx i hi) p hp

/-- C47: subtraction of bits. -/
theorem C47_subBitSpan {n z1 z0 x1 x0 y0 : Nat} {m : Mem} (h : Safe n z1 z0 [x1, x0, y0])
    (hx : ∀ i, i < n → Valid (m (x1 + i)) (m (x0 + i))) :
    SpanSpec n z1 z0 m (subBitSpan n z1 z0 x1 x0 y0 m) fun i p => trit (m (x1 + i)) (m (x0 + i)) p + 3 - bit (m (y0 + i)) p := by
  obtain ⟨h1, h2⟩ := spanOp_ok (f := with3 subBit) h m n (by omega)
  refine ⟨fun i hi p hp => ?_, h2⟩
  obtain ⟨g1, g2⟩ := h1 i hi
  unfold subBitSpan
  rw [g1, g2]
  exact C47_subBit (hx i hi) p hp

/-- C47: addition in place, for spans that do not overlap. -/
theorem C47_incSpan {n z1 z0 y1 y0 : Nat} {m : Mem} (hz : ∀ i, i < n → ∀ j, j < n → z1 + i ≠ z0 + j)
    (hd : ∀ r ∈ [y1, y0], ∀ i, i < n → ∀ j, j < n → r + i ≠ z1 + j ∧ r + i ≠ z0 + j)
    (hx : ∀ i, i < n → Valid (m (z1 + i)) (m (z0 + i))) (hy : ∀ i, i < n → Valid (m (y1 + i)) (m (y0 + i))) :
    SpanSpec n z1 z0 m (incSpan n z1 z0 y1 y0 m) fun i p =>
      trit (m (z1 + i)) (m (z0 + i)) p + trit (m (y1 + i)) (m (y0 + i)) p := by
  have h : Safe n z1 z0 [z1, z0, y1, y0] := by
    refine ⟨hz, fun r hr i hi j hj => ?_⟩
    simp only [List.mem_cons, List.not_mem_nil, or_false] at hr
    rcases hr with rfl | rfl | rfl | rfl
    · exact ⟨by omega, hz i hi j (by omega)⟩
    · exact ⟨fun hc => hz j (by omega) i hi hc.symm, by omega⟩
    · exact hd _ (by simp) i hi j (by omega)
    · exact hd _ (by simp) i hi j (by omega)
  obtain ⟨h1, h2⟩ := spanOp_ok (f := with4 add) h m n (by omega)
  refine ⟨fun i hi p hp => ?_, h2⟩
  obtain ⟨g1, g2⟩ := h1 i hi
  unfold incSpan
  rw [g1, g2]
  exact C47_add (hx i hi) (hy i hi) p hp

/-- C47: addition of bits in place, for spans that do not overlap. -/
theorem C47_incBitSpan {n z1 z0 y0 : Nat} {m : Mem} (hz : ∀ i, i < n → ∀ j, j < n → z1 + i ≠ z0 + j)
    (hd : ∀ i, i < n → ∀ j, j < n → y0 + i ≠ z1 + j ∧ y0 + i ≠ z0 + j)
    (hx : ∀ i, i < n → Valid (m (z1 + i)) (m (z0 + i))) :
    SpanSpec n z1 z0 m (incBitSpan n z1 z0 y0 m) fun i p => trit (m (z1 + i)) (m (z0 + i)) p + bit (m (y0 + i)) p := by
  have h : Safe n z1 z0 [z1, z0, y0] := by
    refine ⟨hz, fun r hr i hi j hj => ?_⟩
    simp only [List.mem_cons, List.not_mem_nil, or_false] at hr
    rcases hr with rfl | rfl | rfl
    · exact ⟨by omega, hz i hi j (by omega)⟩
    · exact ⟨fun hc => hz j (by omega) i hi hc.symm, by omega⟩
    · exact hd i hi j (by omega)
  obtain ⟨h1, h2⟩ := spanOp_ok (f := with3 incBit) h m n (by omega)
  refine ⟨fun i hi p hp => ?_, h2⟩
  obtain ⟨g1, g2⟩ := h1 i hi
  unfold incBitSpan
  rw [g1, g2]
  exact C47_incBit (hx i hi) p hp

/-- The hypotheses of C47: `x += y` written over `x`, three blocks, with digits that are not all zero; `x` and `y` may be the
same span. -/
example : Safe 3 0 3 [0, 3, 0, 3] := by
  refine ⟨by omega, ?_⟩
  intro r hr i hi j hj
  simp only [List.mem_cons, List.not_mem_nil, or_false] at hr
  rcases hr with rfl | rfl | rfl | rfl <;> omega
example : Valid 5 10 := by unfold Valid; decide +kernel
/-- A span shifted against the result is not safe: with `x1 = z1 - 1` the values would be overwritten before they are read. -/
example : ¬ Safe 2 1 9 [0, 5, 6, 7] := by
  intro h
  exact (h.ops 0 (by simp) 1 (by omega) 0 (by omega)).1 rfl

end Mod3
end SecJoin
