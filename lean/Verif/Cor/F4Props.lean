import Verif.Cor.F4
/-!
# Arithmetic in the field of four elements: C46
-/
namespace SecJoin
namespace F4

/-! ## The field, as polynomials over the bits modulo x^2 + x + 1 -/

/-- `a.1 + a.2 x`. -/
abbrev GF4 := Bool × Bool

def gadd (a b : GF4) : GF4 := (a.1 ^^ b.1, a.2 ^^ b.2)

/-- `(a0 + a1 x)(b0 + b1 x)` with `x^2 = x + 1`. -/
def gmul (a b : GF4) : GF4 := ((a.1 && b.1) ^^ (a.2 && b.2), ((a.1 && b.2) ^^ (a.2 && b.1)) ^^ (a.2 && b.2))

/-- The specification is a field. -/
theorem gf4_field : (∀ a b c, gmul (gmul a b) c = gmul a (gmul b c)) ∧ (∀ a b, gmul a b = gmul b a) ∧
    (∀ a b c, gmul a (gadd b c) = gadd (gmul a b) (gmul a c)) ∧ (∀ a, gmul a (true, false) = a) ∧
    (∀ a, a ≠ (false, false) → ∃ b, gmul a b = (true, false)) := by
  refine ⟨?_, ?_, ?_, ?_, ?_⟩
  · rintro ⟨_ | _, _ | _⟩ ⟨_ | _, _ | _⟩ ⟨_ | _, _ | _⟩ <;> rfl
  · rintro ⟨_ | _, _ | _⟩ ⟨_ | _, _ | _⟩ <;> rfl
  · rintro ⟨_ | _, _ | _⟩ ⟨_ | _, _ | _⟩ ⟨_ | _, _ | _⟩ <;> rfl
  · rintro ⟨_ | _, _ | _⟩ <;> rfl
  rintro ⟨_ | _, _ | _⟩ h
  · exact absurd rfl h
  · exact ⟨(true, true), rfl⟩
  · exact ⟨(true, false), rfl⟩
  · exact ⟨(false, true), rfl⟩

/-- The element number `i` of a block; the element a scalar stands for. -/
def elem (x : Block) (i : Nat) : GF4 := (x.getLsbD (2 * i), x.getLsbD (2 * i + 1))
def selem (r : BitVec 8) : GF4 := (r.getLsbD 0, r.getLsbD 1)

/-! ## Proofs -/

theorem mask_bit {i : Nat} (h : i < 128) : mask.getLsbD i = (i % 2 == 0) := by
  have : ∀ i < 128, mask.getLsbD i = (i % 2 == 0) := by decide
  exact this i h

theorem one_bit {k : Nat} (hk : k < 128) (i : Nat) : (1#128 <<< k).getLsbD i = decide (i = k) := by
  rw [BitVec.getLsbD_shiftLeft]
  by_cases h : i = k
  · subst h
    simp [hk]
  · by_cases h2 : i < k
    · simp [h, h2]
    · have : i - k ≠ 0 := by omega
      simp [h, this]

theorem shr_bit (w : Bool) (x : Block) {i : Nat} (h : i < 128) (h63 : i ≠ 63) : (shr1 w x).getLsbD i = x.getLsbD (i + 1) := by
  unfold shr1
  split
  · rw [BitVec.getLsbD_ushiftRight, Nat.add_comm]
  · rw [BitVec.getLsbD_and, BitVec.getLsbD_not, one_bit (by omega), BitVec.getLsbD_ushiftRight, Nat.add_comm]
    simp [h, h63]

theorem shl_bit (w : Bool) (x : Block) {i : Nat} (h : i < 128) (h0 : i ≠ 0) (h64 : i ≠ 64) : (shl1 w x).getLsbD i = x.getLsbD (i - 1) := by
  unfold shl1
  split
  · rw [BitVec.getLsbD_shiftLeft]
    simp [h, h0]
  · rw [BitVec.getLsbD_and, BitVec.getLsbD_not, one_bit (by omega), BitVec.getLsbD_shiftLeft]
    simp [h, h64, h0]

theorem shl_even (w : Bool) (x : Block) {i : Nat} (h : i < 64) (hx : ∀ j < 64, x.getLsbD (2 * j + 1) = false) : (shl1 w x).getLsbD (2 * i) = false := by
  by_cases h0 : i = 0
  · subst h0
    unfold shl1
    split <;> simp
  · by_cases h64 : 2 * i = 64
    · unfold shl1
      split
      · rw [BitVec.getLsbD_shiftLeft]
        have := hx (i - 1) (by omega)
        have e : 2 * (i - 1) + 1 = 2 * i - 1 := by omega
        rw [e] at this
        simp [this]
      · rw [BitVec.getLsbD_and, BitVec.getLsbD_not, one_bit (by omega)]
        simp [h64]
    · rw [shl_bit w x (by omega) (by omega) h64]
      have := hx (i - 1) (by omega)
      have e : 2 * (i - 1) + 1 = 2 * i - 1 := by omega
      rwa [e] at this

theorem masked_odd (x : Block) {j : Nat} (h : j < 64) : (x &&& mask).getLsbD (2 * j + 1) = false := by
  rw [BitVec.getLsbD_and, mask_bit (by omega)]
  have : (2 * j + 1) % 2 = 1 := by omega
  simp [this]

theorem masked_even (x : Block) {j : Nat} (h : j < 64) : (x &&& mask).getLsbD (2 * j) = x.getLsbD (2 * j) := by
  rw [BitVec.getLsbD_and, mask_bit (by omega)]
  simp

theorem msb_even (w : Bool) (x : Block) {j : Nat} (h : j < 64) : (shr1 w x &&& mask).getLsbD (2 * j) = x.getLsbD (2 * j + 1) := by
  rw [masked_even _ h, shr_bit w x (by omega) (by omega)]

theorem pack (w : Bool) {lo hi : Block} (h1 : ∀ j < 64, lo.getLsbD (2 * j + 1) = false) (h2 : ∀ j < 64, hi.getLsbD (2 * j + 1) = false)
    {i : Nat} (h : i < 64) : elem (lo ||| shl1 w hi) i = (lo.getLsbD (2 * i), hi.getLsbD (2 * i)) := by
  unfold elem
  rw [BitVec.getLsbD_or, BitVec.getLsbD_or, shl_even w hi h h2, h1 i h, shl_bit w hi (by omega) (by omega) (by omega)]
  simp

theorem scalar_cases {r : BitVec 8} (h : r.toNat < 4) : r = 0 ∨ r = 1 ∨ r = 2 ∨ r = 3 := by
  have : r.toNat = 0 ∨ r.toNat = 1 ∨ r.toNat = 2 ∨ r.toNat = 3 := by omega
  rcases this with h | h | h | h
  · exact .inl (BitVec.eq_of_toNat_eq h)
  · exact .inr (.inl (BitVec.eq_of_toNat_eq h))
  · exact .inr (.inr (.inl (BitVec.eq_of_toNat_eq h)))
  · exact .inr (.inr (.inr (BitVec.eq_of_toNat_eq h)))

theorem block_ext {x y : Block} (h : ∀ i < 64, elem x i = elem y i) : x = y := by
  apply BitVec.eq_of_getLsbD_eq
  intro i hi
  have := h (i / 2) (by omega)
  unfold elem at this
  rw [Prod.mk.injEq] at this
  rcases Nat.mod_two_eq_zero_or_one i with h2 | h2
  · have e : 2 * (i / 2) = i := by omega
    rw [e] at this
    exact this.1
  · have e : 2 * (i / 2) + 1 = i := by omega
    rw [e] at this
    exact this.2

/-! ## C46 -/

/-- The packed product acts on every element as the product of the field. -/
theorem C46_mul (w : Bool) (x : Block) {r : BitVec 8} (h : r.toNat < 4) :
    ∃ y, mul w x r = .ok y ∧ ∀ i < 64, elem y i = gmul (elem x i) (selem r) := by
  rcases scalar_cases h with rfl | rfl | rfl | rfl
  · exact ⟨0, rfl, fun i _ => by simp [elem, selem, gmul]⟩
  · refine ⟨x, rfl, fun i _ => ?_⟩
    have : selem 1 = (true, false) := by decide
    rw [this]
    exact (gf4_field.2.2.2.1 _).symm
  · refine ⟨_, rfl, fun i hi => ?_⟩
    have e : selem 2 = (false, true) := by decide
    rw [pack w (fun j hj => masked_odd _ hj) (fun j hj => by rw [BitVec.getLsbD_xor, masked_odd _ hj, masked_odd _ hj]; rfl) hi,
      BitVec.getLsbD_xor, msb_even w x hi, masked_even x hi, e]
    simp [gmul, elem]
  · refine ⟨_, rfl, fun i hi => ?_⟩
    have e : selem 3 = (true, true) := by decide
    rw [pack w (fun j hj => by rw [BitVec.getLsbD_xor, masked_odd _ hj, masked_odd _ hj]; rfl) (fun j hj => masked_odd _ hj) hi,
      BitVec.getLsbD_xor, msb_even w x hi, masked_even x hi, e]
    simp only [gmul, elem]
    generalize x.getLsbD (2 * i) = a
    generalize x.getLsbD (2 * i + 1) = b
    revert a b
    decide

/-- A scalar above three is refused. -/
theorem C46_mul_refused (w : Bool) (x : Block) {r : BitVec 8} (h : 4 ≤ r.toNat) : mul w x r = .error .ub := by
  have h0 : r ≠ 0 := fun e => by rw [e] at h; exact absurd h (by decide)
  have h1 : r ≠ 1 := fun e => by rw [e] at h; exact absurd h (by decide)
  have h2 : r ≠ 2 := fun e => by rw [e] at h; exact absurd h (by decide)
  have h3 : r ≠ 3 := fun e => by rw [e] at h; exact absurd h (by decide)
  simp only [mul, if_neg h0, if_neg h1, if_neg h2, if_neg h3]

/-- Products of scalars are products of the field, and scalars again. -/
theorem C46_mulG {r s : BitVec 8} (hr : r.toNat < 4) (hs : s.toNat < 4) :
    ∃ t, mulG r s = .ok t ∧ t.toNat < 4 ∧ selem t = gmul (selem r) (selem s) := by
  rcases scalar_cases hr with rfl | rfl | rfl | rfl <;> rcases scalar_cases hs with rfl | rfl | rfl | rfl <;>
    exact ⟨_, rfl, by decide, by decide⟩

/-- Associativity of block times scalar times scalar. -/
theorem C46_assoc (w : Bool) (x : Block) {r s : BitVec 8} (hr : r.toNat < 4) (hs : s.toNat < 4) :
    (mul w x r >>= fun y => mul w y s) = (mulG r s >>= fun t => mul w x t) := by
  obtain ⟨y, e1, h1⟩ := C46_mul w x hr
  obtain ⟨t, e2, ht, h2⟩ := C46_mulG hr hs
  obtain ⟨z, e3, h3⟩ := C46_mul w y hs
  obtain ⟨u, e4, h4⟩ := C46_mul w x ht
  rw [e1, e2, ok_bind, ok_bind, e3, e4]
  congr 1
  apply block_ext
  intro i hi
  rw [h3 i hi, h4 i hi, h1 i hi, h2, gf4_field.1]

/-- The product distributes over both sums (which are XORs, F4CoeffCtx.h 12-15 and 34-41). -/
theorem C46_distrib (w : Bool) (x y : Block) {r s : BitVec 8} (hr : r.toNat < 4) (hs : s.toNat < 4) :
    (∃ a b c, mul w x r = .ok a ∧ mul w y r = .ok b ∧ mul w (x ^^^ y) r = .ok c ∧ c = a ^^^ b) ∧
    (∃ a b c, mul w x r = .ok a ∧ mul w x s = .ok b ∧ mul w x (r ^^^ s) = .ok c ∧ c = a ^^^ b) := by
  have hx : ∀ (a b : Block) i, elem (a ^^^ b) i = gadd (elem a i) (elem b i) := fun a b i => by simp [elem, gadd]
  have hsx : selem (r ^^^ s) = gadd (selem r) (selem s) := by simp [selem, gadd]
  have hrs : (r ^^^ s).toNat < 4 := by
    rcases scalar_cases hr with rfl | rfl | rfl | rfl <;> rcases scalar_cases hs with rfl | rfl | rfl | rfl <;> decide
  constructor
  · obtain ⟨a, e1, h1⟩ := C46_mul w x hr
    obtain ⟨b, e2, h2⟩ := C46_mul w y hr
    obtain ⟨c, e3, h3⟩ := C46_mul w (x ^^^ y) hr
    refine ⟨a, b, c, e1, e2, e3, block_ext fun i hi => ?_⟩
    rw [h3 i hi, hx, hx, h1 i hi, h2 i hi, gf4_field.2.1, gf4_field.2.2.1, gf4_field.2.1, gf4_field.2.1 (selem r)]
  · obtain ⟨a, e1, h1⟩ := C46_mul w x hr
    obtain ⟨b, e2, h2⟩ := C46_mul w x hs
    obtain ⟨c, e3, h3⟩ := C46_mul w x hrs
    refine ⟨a, b, c, e1, e2, e3, block_ext fun i hi => ?_⟩
    rw [h3 i hi, hx, h1 i hi, h2 i hi, hsx, gf4_field.2.2.1]

/-- Every non-zero scalar is invertible. -/
theorem C46_inverse (w : Bool) (x : Block) {r : BitVec 8} (hr : r.toNat < 4) (h0 : r ≠ 0) :
    ∃ s, s.toNat < 4 ∧ (mul w x r >>= fun y => mul w y s) = .ok x := by
  have : ∃ s : BitVec 8, s.toNat < 4 ∧ mulG r s = .ok 1 := by
    rcases scalar_cases hr with rfl | rfl | rfl | rfl
    · exact absurd rfl h0
    · exact ⟨1, by decide, rfl⟩
    · exact ⟨3, by decide, rfl⟩
    · exact ⟨2, by decide, rfl⟩
  obtain ⟨s, hs, e⟩ := this
  refine ⟨s, hs, ?_⟩
  rw [C46_assoc w x hr hs, e]
  rfl

/-- Shifting halves or the whole block makes no difference. -/
theorem C46_shift (x : Block) {r : BitVec 8} (h : r.toNat < 4) : mul true x r = mul false x r := by
  obtain ⟨a, e1, h1⟩ := C46_mul true x h
  obtain ⟨b, e2, h2⟩ := C46_mul false x h
  rw [e1, e2]
  congr 1
  exact block_ext fun i hi => by rw [h1 i hi, h2 i hi]

/-- A random block is taken apart into the first element, as a scalar, and the others. -/
theorem C46_fromBlock (b : Block) : selem (fromBlockG b) = elem b 0 ∧ (fromBlockG b).toNat < 4 ∧ elem (fromBlockF b) 0 = (false, false) ∧
    ∀ i < 64, i ≠ 0 → elem (fromBlockF b) i = elem b i := by
  have hm : ∀ i < 128, (BitVec.ofNat 128 (0xffffffffffffffff * 2 ^ 64 + 0xfffffffffffffffc)).getLsbD i = decide (2 ≤ i) := by decide
  refine ⟨?_, ?_, ?_, ?_⟩
  · have h0 : (3#8).getLsbD 0 = true := by decide
    have h1 : (3#8).getLsbD 1 = true := by decide
    simp only [selem, elem, fromBlockG, BitVec.getLsbD_and, BitVec.getLsbD_setWidth]
    simp
  · unfold fromBlockG
    rw [BitVec.toNat_and]
    exact Nat.lt_of_le_of_lt Nat.and_le_right (by decide)
  · simp only [elem, fromBlockF, BitVec.getLsbD_and]
    rw [hm 0 (by omega), hm 1 (by omega)]
    simp
  · intro i hi h0
    simp only [elem, fromBlockF, BitVec.getLsbD_and]
    rw [hm _ (by omega), hm _ (by omega)]
    have h1 : 2 ≤ 2 * i := by omega
    have h2 : 2 ≤ 2 * i + 1 := by omega
    simp [h1, h2]

/-- A scalar below four, not zero, and a block: the hypotheses are met. -/
example : (2 : BitVec 8).toNat < 4 ∧ (2 : BitVec 8) ≠ 0 := by decide

end F4
end SecJoin
