import Verif.Sort.RadixRounds
import Verif.Sort.PlainProps
import Verif.PermCor.Props
/-!
# C19 - C22: the secure radix sort

`rank n key i` (RadixSum.lean) is the specification of the sort: the number of rows that come before row `i` in the
stable order by `key`.
-/
namespace SecJoin
namespace Radix

/-! ## C21 -/

/-- C21: the digit of every row holds the bits `begin, begin + 1, ..` of its key. `bitOf` is zero past the end of the
row, so bits past the end of the key read as zero; bits from `size` on are zero. -/
theorem C21_extract {n begin size : Nat} {k : Mat Row} (hk : Shape n k.cols k.rows) (hn : 0 < n)
    (hb : begin < 8 * k.cols) (h0 : 0 < size) (h8 : size ≤ 8) :
    ∃ v, extract begin size k = .ok v ∧ v.length = n ∧ ∀ i, i < n → ∀ j, j < 8 →
      (v.getD i 0).getLsbD j = (decide (j < size) && bitOf (k.rows.getD i []) (begin + j)) :=
  ⟨_, extract_ok hk hn hb h0 h8, by rw [digits_length, hk.1], fun _ hi _ hj => digits_bit hk hb h0 h8 hi hj⟩

/-- C21: more than eight bits are refused. -/
theorem C21_refused {begin size : Nat} (k : Mat Row) (h : 8 < size) : extract begin size k = .error .throw := by
  unfold extract
  rw [decide_eq_true h, throwIf_true, err_bind]

/-- C21: a digit that straddles two bytes, and one that runs past the key. -/
example : extract 6 4 ⟨2, [[0xC0, 0x02], [0x00, 0x03]]⟩ = .ok [0x0B, 0x0C] := by decide +kernel
example : extract 13 8 ⟨2, [[0xFF, 0xA0], [0xFF, 0xFF]]⟩ = .ok [0x05, 0x07] := by decide +kernel
example : Shape 2 2 [[0xC0, 0x02], [0x00, 0x03]] ∧ 6 < 8 * 2 ∧ 13 < 8 * 2 := by unfold Shape; decide

/-- The precondition `begin < 8 * cols` is needed: from the end of the key on, and for no rows or no bits, the code leaves
its buffers. -/
theorem C21_outside : extract 8 4 ⟨1, [[1], [2]]⟩ = .error .ub ∧ extract 16 4 ⟨1, [[1], [2], [3]]⟩ = .error .ub ∧
    extract 0 4 ⟨1, []⟩ = .error .ub ∧ extract 0 0 ⟨1, [[1]]⟩ = .error .ub := by decide +kernel

/-! ## C22 -/

/-- C22: the two outputs add up, modulo `2^32`, to the XOR of the input bits, for all inputs and all OTs. -/
theorem C22_inject {n w c0 c1 : Nat} {in0 in1 : Mat Row} {bs : List (List Ot)}
    (hs0 : Shape n c0 in0.rows) (hs1 : Shape n c1 in1.rows) (hc0 : in0.cols = c0) (hc1 : in1.cols = c1)
    (hw0 : w ≤ 8 * c0) (hw1 : w ≤ 8 * c1) (hb : n * w ≤ (bs.map List.length).sum) :
    ∃ o0 o1, bitInjection n w 32 in0 in1 bs = .ok (o0, o1) ∧ o0.length = n * w ∧ o1.length = n * w ∧
      ∀ i, i < n → ∀ j, j < w → o0.getD (i * w + j) 0 + o1.getD (i * w + j) 0 =
        if bitOf (in0.rows.getD i []) j = bitOf (in1.rows.getD i []) j then 0 else 1 := by
  obtain ⟨o0, o1, e, l0, l1, h⟩ := bitInjection_ok (outBits := 32) (.inl rfl) hs0 hs1 hc0 hc1 hw0 hw1 hb
  refine ⟨o0, o1, e, l0, l1, fun i hi j hj => ?_⟩
  have hk : i * w + j < n * w := by
    have : (i + 1) * w ≤ n * w := Nat.mul_le_mul_right _ hi
    rw [Nat.add_mul] at this
    omega
  have := h _ hk
  rw [show (i * w + j) / w = i by rw [Nat.mul_comm, Nat.mul_add_div (by omega), Nat.div_eq_of_lt hj, Nat.add_zero],
    show (i * w + j) % w = j by rw [Nat.mul_comm, Nat.mul_add_mod, Nat.mod_eq_of_lt hj]] at this
  simp only [BitVec.setWidth_eq] at this
  rw [this]
  cases bitOf (in0.rows.getD i []) j <;> cases bitOf (in1.rows.getD i []) j <;> rfl

/-- C22 for 25 to 30 bit outputs: the sum is right modulo `2^outBits`. -/
theorem C22_short {n w c0 c1 outBits : Nat} {in0 in1 : Mat Row} {bs : List (List Ot)} (h25 : 25 ≤ outBits) (h30 : outBits ≤ 30)
    (hs0 : Shape n c0 in0.rows) (hs1 : Shape n c1 in1.rows) (hc0 : in0.cols = c0) (hc1 : in1.cols = c1)
    (hw0 : w ≤ 8 * c0) (hw1 : w ≤ 8 * c1) (hb : n * w ≤ (bs.map List.length).sum) :
    ∃ o0 o1, bitInjection n w outBits in0 in1 bs = .ok (o0, o1) ∧ o0.length = n * w ∧ o1.length = n * w ∧
      ∀ i, i < n → ∀ j, j < w → ((o0.getD (i * w + j) 0).toNat + (o1.getD (i * w + j) 0).toNat) % 2 ^ outBits =
        if bitOf (in0.rows.getD i []) j = bitOf (in1.rows.getD i []) j then 0 else 1 := by
  obtain ⟨o0, o1, e, l0, l1, h⟩ := bitInjection_ok (outBits := outBits) (.inr ⟨h25, h30⟩) hs0 hs1 hc0 hc1 hw0 hw1 hb
  refine ⟨o0, o1, e, l0, l1, fun i hi j hj => ?_⟩
  have hk : i * w + j < n * w := by
    have : (i + 1) * w ≤ n * w := Nat.mul_le_mul_right _ hi
    rw [Nat.add_mul] at this
    omega
  have := congrArg BitVec.toNat (h _ hk)
  rw [show (i * w + j) / w = i by rw [Nat.mul_comm, Nat.mul_add_div (by omega), Nat.div_eq_of_lt hj, Nat.add_zero],
    show (i * w + j) % w = j by rw [Nat.mul_comm, Nat.mul_add_mod, Nat.mod_eq_of_lt hj]] at this
  rw [BitVec.toNat_add, BitVec.toNat_setWidth, BitVec.toNat_setWidth, ← Nat.add_mod] at this
  rw [this, BitVec.toNat_setWidth]
  have hp : 2 ≤ 2 ^ outBits := by
    have := Nat.pow_le_pow_right (n := 2) (by omega) (show 1 ≤ outBits by omega)
    omega
  cases bitOf (in0.rows.getD i []) j <;> cases bitOf (in1.rows.getD i []) j <;>
    simp [word, Nat.mod_eq_of_lt (show 1 < 2 ^ outBits by omega)]

/-- Without enough OTs, or when the matrices do not have the announced size, the call is refused. -/
theorem C22_refused {n w : Nat} {in0 in1 : Mat Row} {bs : List (List Ot)}
    (h : in0.cols * 8 < w ∨ in1.cols * 8 < w ∨ in0.rows.length ≠ n ∨ in1.rows.length ≠ n ∨
      (bs.map List.length).sum < n * w) : bitInjection n w 32 in0 in1 bs = .error .throw := by
  unfold bitInjection
  by_cases h1 : in0.cols * 8 < w ∨ in1.cols * 8 < w
  · rw [show (decide (w > in0.cols * 8) || decide (w > in1.cols * 8)) = true by simpa using h1, throwIf_true, err_bind]
  rw [show (decide (w > in0.cols * 8) || decide (w > in1.cols * 8)) = false by
    rw [decide_eq_false (by omega), decide_eq_false (by omega)]; rfl, throwIf_false, ok_bind]
  by_cases h2 : in0.rows.length ≠ n ∨ in1.rows.length ≠ n
  · rw [show (in0.rows.length != n || in1.rows.length != n) = true by simpa using h2, throwIf_true, err_bind]
  rw [show (in0.rows.length != n || in1.rows.length != n) = false by simp; omega, throwIf_false, ok_bind]
  obtain ⟨m, em, -⟩ := injMask_ok (v := 32) (.inl rfl)
  rw [em, ok_bind, decide_eq_true (by omega), throwIf_true, err_bind]

/-- Other widths: `unpack` reads four bytes at each element whatever the width and so leaves the buffer; with 31 bits the
mask overflows. -/
theorem C22_widths_false :
    bitInjection 1 2 8 ⟨1, [[1]]⟩ ⟨1, [[3]]⟩ [[⟨7, 9, true⟩, ⟨1, 2, false⟩]] = .error .ub ∧
    bitInjection 1 2 24 ⟨1, [[1]]⟩ ⟨1, [[3]]⟩ [[⟨7, 9, true⟩, ⟨1, 2, false⟩]] = .error .ub ∧
    bitInjection 1 2 31 ⟨1, [[1]]⟩ ⟨1, [[3]]⟩ [[⟨7, 9, true⟩, ⟨1, 2, false⟩]] = .error .ub := by decide +kernel

/-- The hypotheses of C22 hold for two rows of three bits with two batches of OTs. -/
example : Shape 2 1 [[5], [2]] ∧ Shape 2 1 [[1], [7]] ∧ 3 ≤ 8 * 1 ∧
    2 * 3 ≤ (([[⟨7, 9, true⟩, ⟨1, 2, false⟩, ⟨4, 4, true⟩], [⟨7, 9, true⟩, ⟨1, 2, false⟩, ⟨4, 4, true⟩]] : List (List Ot)).map
      List.length).sum := by unfold Shape; decide

/-! ## C19 -/

/-- C19: for every number of rows up to `2^32`, every digit width and every sharing of the digits, the counting step gives
XOR shares of the position of every row in the stable sort by digit. The masks, OTs and one-hot triples are arbitrary. -/
theorem C19_round {n L : Nat} (h1 : 1 ≤ L) (h8 : L ≤ 8) (hn : n ≤ 2 ^ 32) {k0 k1 : List Byte}
    (l0 : k0.length = n) (l1 : k1.length = n) {r : RoundRnd} (hr : r.Ok n L) :
    ∃ d0 d1, genBitPerm n L k0 k1 r = .ok (d0, d1) ∧ d0.length = n ∧ d1.length = n ∧
      ∀ i, i < n → (d0.getD i 0 ^^^ d1.getD i 0).toNat =
        ((Finset.range n).filter fun a =>
          (k0.getD a 0 ^^^ k1.getD a 0).toNat % 2 ^ L < (k0.getD i 0 ^^^ k1.getD i 0).toNat % 2 ^ L ∨
          ((k0.getD a 0 ^^^ k1.getD a 0).toNat % 2 ^ L = (k0.getD i 0 ^^^ k1.getD i 0).toNat % 2 ^ L ∧ a < i)).card :=
  genBitPerm_ok h1 h8 hn l0 l1 hr

/-- C19: these positions are a permutation. -/
theorem C19_bijection (n : Nat) (key : Nat → Nat) : IsBijection ((List.range n).map (rank n key)) :=
  (isBijection_iff _).2 (rankList_perm n key)

/-- Digits of more than eight bits, or vectors of another length, are refused. -/
theorem C19_refused {n L : Nat} {k0 k1 : List Byte} {r : RoundRnd} (h : 8 < L ∨ k0.length ≠ n ∨ k1.length ≠ n) :
    genBitPerm n L k0 k1 r = .error .throw := by
  unfold genBitPerm
  by_cases h1 : 8 < L
  · rw [decide_eq_true h1, throwIf_true, err_bind]
  rw [decide_eq_false h1, throwIf_false, ok_bind,
    show (k0.length != n || k1.length != n) = true by simp; omega, throwIf_true, err_bind]

/-- Randomness for four rows of two-bit digits. -/
def exRnd : RoundRnd where
  oh := fun _ _ => false
  inj := [List.replicate 10 ⟨3, 8, true⟩, List.replicate 6 ⟨1, 2, false⟩]
  otA := [List.replicate 16 ⟨5, 77, false⟩]
  otB := [List.replicate 8 ⟨9, 1, true⟩, List.replicate 8 ⟨0, 4, false⟩]
  mask := fun i => BitVec.ofNat 32 (i * 77)

theorem exRnd_ok : exRnd.Ok 4 2 := ⟨by decide, by decide, by decide, by decide, by decide⟩

/-- Digits 3, 1, 3, 0 go to positions 2, 1, 3, 0. -/
example : (genBitPerm 4 2 [1, 0, 2, 3] [2, 1, 1, 3] exRnd).map (fun d => List.zipWith (· ^^^ ·) d.1 d.2) =
    .ok [2, 1, 3, 0] := by decide +kernel

/-! ## C20 -/

theorem rank_pos {n : Nat} {key : Nat → Nat} {p : List Nat} (hp : IsPermList p) (hl : p.length = n)
    (ho : p.Pairwise (KeyOrder key)) {i : Nat} (hi : i < n) : p.getD (rank n key i) 0 = i := by
  have hr := rankList_perm n key
  have hq := invList_isPerm hr
  have hlen : ((List.range n).map (rank n key)).length = n := by simp
  have hrk : ∀ j (hj : j < n), ∃ a, a < n ∧ (invList ((List.range n).map (rank n key)))[j]? = some a ∧ rank n key a = j := by
    intro j hj
    have : j ∈ (Finset.range n).image (rank n key) := by rw [rank_image]; exact Finset.mem_range.mpr hj
    obtain ⟨a, ha, rfl⟩ := Finset.mem_image.mp this
    rw [Finset.mem_range] at ha
    refine ⟨a, ha, ?_, rfl⟩
    rw [invList_getElem? (by rw [hlen]; exact hj)]
    have h2 := idxOf_getElem' hr.2 (i := a) (by rw [hlen]; exact ha)
    simpa using h2
  have e : p = invList ((List.range n).map (rank n key)) := by
    apply keyOrder_unique hp hq (by rw [invList_length, hlen, hl]) ho
    rw [List.pairwise_iff_getElem]
    intro a b ha hb hab
    rw [invList_length, hlen] at ha hb
    obtain ⟨x, hx, ex, rx⟩ := hrk a ha
    obtain ⟨y, hy, ey, ry⟩ := hrk b hb
    rw [List.getElem?_eq_getElem (by rw [invList_length, hlen]; exact ha)] at ex
    rw [List.getElem?_eq_getElem (by rw [invList_length, hlen]; exact hb)] at ey
    rw [Option.some.injEq] at ex ey
    rw [ex, ey]
    exact (rank_lt_iff key hx hy).mp (by omega)
  rw [e, List.getD_eq_getElem?_getD, invList_getElem? (by rw [hlen]; exact rank_lt key hi)]
  have h2 := idxOf_getElem' hr.2 (i := i) (by rw [hlen]; exact hi)
  simpa using h2

/-- The preprocessing of a later round: a valid shared permutation with enough bytes left, and enough OTs. -/
def PreOk (n L : Nat) (s : ComposedPerm × ComposedPerm × RoundRnd) : Prop :=
  ∃ W0 o0 W1 o1, ValidComposed n W0 o0 W1 o1 s.1 s.2.1 ∧ o0 + 5 ≤ W0 ∧ o1 + 9 ≤ W1 ∧ s.2.2.Ok n L

/-- C20: all rounds together give XOR shares of the position of every row in the stable sort by the value of the key, of
which the `L * ⌈bits / L⌉` lowest bits count. -/
theorem C20_sort {n bits L : Nat} (hn0 : 0 < n) (hn : n ≤ 2 ^ 32) (hb : 0 < bits) (h1 : 1 ≤ L) (h8 : L ≤ 8)
    {k0 k1 : BinMatrix} (b0 : k0.bits = bits) (b1 : k1.bits = bits) (c0 : bits ≤ 8 * k0.cols) (hc : k1.cols = k0.cols)
    (s0 : Shape n k0.cols k0.rows) (s1 : Shape n k0.cols k1.rows)
    {first : RoundRnd} (hf : first.Ok n L) {rest : List (ComposedPerm × ComposedPerm × RoundRnd)}
    (hl : divCeil bits L ≤ rest.length + 1) (hr : ∀ s ∈ rest, PreOk n L s) :
    ∃ d0 d1, genPerm n bits L k0 k1 first rest = .ok (d0, d1) ∧ d0.length = n ∧ d1.length = n ∧
      ∀ i, i < n → (d0.getD i 0 ^^^ d1.getD i 0).toNat =
        rank n (fun a => leValue (xorRow (k0.rows.getD a []) (k1.rows.getD a [])) % 2 ^ (L * divCeil bits L)) i := by
  obtain ⟨d0, d1, e, l0, l1, h⟩ := genPerm_ok hn0 hn hb h1 h8 b0 b1 c0 hc s0 s1 hf hl (fun s hs => by
    obtain ⟨W0, o0, W1, o1, hv, r0, r1, ho⟩ := hr s hs
    exact ⟨W0, o0, W1, o1, validComposed_iff.mp hv, ho, r0, r1⟩)
  refine ⟨d0, d1, e, l0, l1, fun i hi => ?_⟩
  rw [h i hi]
  apply rank_congr _ hi
  intro a ha
  simp only [rowKey, xm]
  rw [xm_getD s0 s1 ha, leValue_eq]

/-- C20: when the bits after `bits` of the keys are zero, the result is the inverse of the plaintext stable sort of the
keys: the row at sorted position `d[i]` is row `i`. -/
theorem C20_plain {n bits L : Nat} (hn0 : 0 < n) (hn : n ≤ 2 ^ 32) (hb : 0 < bits) (h1 : 1 ≤ L) (h8 : L ≤ 8)
    {k0 k1 : BinMatrix} (b0 : k0.bits = bits) (b1 : k1.bits = bits) (c0 : bits ≤ 8 * k0.cols) (hc : k1.cols = k0.cols)
    (s0 : Shape n k0.cols k0.rows) (s1 : Shape n k0.cols k1.rows)
    (hpad : ∀ i, i < n → ∀ j, bits ≤ j → bitOf (k0.rows.getD i []) j = bitOf (k1.rows.getD i []) j)
    {first : RoundRnd} (hf : first.Ok n L) {rest : List (ComposedPerm × ComposedPerm × RoundRnd)}
    (hl : divCeil bits L ≤ rest.length + 1) (hr : ∀ s ∈ rest, PreOk n L s) :
    ∃ d0 d1, genPerm n bits L k0 k1 first rest = .ok (d0, d1) ∧ d0.length = n ∧ d1.length = n ∧
      ∀ i, i < n → (d0.getD i 0 ^^^ d1.getD i 0).toNat < n ∧
        (plainSort (List.zipWith xorRow k0.rows k1.rows)).getD (d0.getD i 0 ^^^ d1.getD i 0).toNat 0 = i := by
  obtain ⟨d0, d1, e, l0, l1, h⟩ := C20_sort hn0 hn hb h1 h8 b0 b1 c0 hc s0 s1 hf hl hr
  refine ⟨d0, d1, e, l0, l1, fun i hi => ?_⟩
  have hs : Shape n k0.cols (List.zipWith xorRow k0.rows k1.rows) := xm_shape s0 s1
  obtain ⟨p1, p2, p3⟩ := plainSort_spec hs
  have hk : ∀ a, a < n → leValue (xorRow (k0.rows.getD a []) (k1.rows.getD a [])) % 2 ^ (L * divCeil bits L) =
      rowKey (List.zipWith xorRow k0.rows k1.rows) a := by
    intro a ha
    rw [rowKey, xm_getD s0 s1 ha, leValue_eq]
    apply Nat.eq_of_testBit_eq
    intro j
    rw [Nat.testBit_mod_two_pow]
    by_cases hj : j < L * divCeil bits L
    · rw [decide_eq_true hj]; rfl
    · have hbits : bits ≤ L * divCeil bits L := by
        have := Nat.div_add_mod (bits + L - 1) L
        have hm := Nat.mod_lt (bits + L - 1) (show 0 < L by omega)
        unfold divCeil
        omega
      rw [decide_eq_false hj, bytesNat_testBit, bitOf_xorRow (by rw [shape_getD s0 ha, shape_getD s1 ha]),
        hpad a ha j (by omega), Bool.xor_self]
      rfl
  rw [h i hi, rank_congr hk hi]
  exact ⟨rank_lt _ hi, rank_pos p1 p2 p3 hi⟩

/-- C20: the mock sort gives the same positions. -/
theorem C20_mock {n bits c : Nat} (hn : n ≤ 2 ^ 32) {k0 k1 : BinMatrix} (b0 : k0.bits = bits) (b1 : k1.bits = bits)
    (s0 : Shape n c k0.rows) (s1 : Shape n c k1.rows) :
    ∃ d0 d1, mockSort n bits k0 k1 = .ok (d0, d1) ∧ d0.length = n ∧ d1.length = n ∧
      ∀ i, i < n → (d0.getD i 0 ^^^ d1.getD i 0).toNat < n ∧
        (plainSort (List.zipWith xorRow k0.rows k1.rows)).getD (d0.getD i 0 ^^^ d1.getD i 0).toNat 0 = i := by
  have hs : Shape n c (List.zipWith xorRow k0.rows k1.rows) := xm_shape s0 s1
  obtain ⟨p1, p2, p3⟩ := plainSort_spec hs
  refine ⟨List.replicate n 0, (invList (plainSort (List.zipWith xorRow k0.rows k1.rows))).map (BitVec.ofNat 32), ?_, by simp,
    by simp [invList_length, p2], fun i hi => ?_⟩
  · unfold mockSort checkKey
    simp only [s0.1, s1.1, b0, b1, bne_self_eq_false, throwIf_false, ok_bind]
    rw [Perm.inverse_eq (p := ⟨plainSort (List.zipWith xorRow k0.rows k1.rows)⟩) p1, ok_bind]
  · have hm : i ∈ plainSort (List.zipWith xorRow k0.rows k1.rows) := by
      have := (isPermList_iff_perm.1 p1).mem_iff (a := i)
      rw [this, p2, List.mem_range]; exact hi
    have hlt := List.idxOf_lt_length_iff.mpr hm
    have hv : ((List.replicate n (0 : BitVec 32)).getD i 0 ^^^
        ((invList (plainSort (List.zipWith xorRow k0.rows k1.rows))).map (BitVec.ofNat 32)).getD i 0).toNat =
        (plainSort (List.zipWith xorRow k0.rows k1.rows)).idxOf i := by
      rw [List.getD_eq_getElem?_getD, List.getD_eq_getElem?_getD, List.getElem?_map, invList_getElem? (by omega),
        List.getElem?_replicate, if_pos hi]
      simp only [Option.map_some, Option.getD_some, BitVec.zero_xor, BitVec.toNat_ofNat]
      rw [BitVec.ofNat_eq_ofNat, BitVec.zero_xor, BitVec.toNat_ofNat, Nat.mod_eq_of_lt (by omega)]
    rw [hv]
    refine ⟨by omega, ?_⟩
    rw [List.getD_eq_getElem?_getD, getElem_idxOf' hm]
    rfl

theorem checkKey_refused {n bits : Nat} {k : BinMatrix} (h : k.rows.length ≠ n ∨ k.bits ≠ bits) :
    checkKey n bits k = .error .throw := by
  unfold checkKey
  by_cases h1 : k.rows.length = n
  · have h2 : k.bits ≠ bits := by omega
    simp [h1, throwIf, h2]
  · simp [h1, throwIf]

theorem checkKey_cases (n bits : Nat) (k : BinMatrix) : checkKey n bits k = .ok () ∨ checkKey n bits k = .error .throw := by
  unfold checkKey throwIf
  cases (k.rows.length != n) <;> cases (k.bits != bits) <;> simp

/-- Keys of another size are refused, whichever party has them. -/
theorem C20_refused {n bits L : Nat} {k0 k1 : BinMatrix} {first : RoundRnd} {rest : List (ComposedPerm × ComposedPerm × RoundRnd)}
    (h : k0.rows.length ≠ n ∨ k0.bits ≠ bits ∨ k1.rows.length ≠ n ∨ k1.bits ≠ bits) :
    genPerm n bits L k0 k1 first rest = .error .throw ∧ mockSort n bits k0 k1 = .error .throw := by
  unfold genPerm mockSort
  rcases checkKey_cases n bits k0 with e | e
  · rw [e, ok_bind, ok_bind]
    by_cases h0 : k0.rows.length ≠ n ∨ k0.bits ≠ bits
    · rw [checkKey_refused h0] at e; cases e
    · rw [checkKey_refused (k := k1) (by omega), err_bind, err_bind]; exact ⟨rfl, rfl⟩
  · rw [e, err_bind, err_bind]; exact ⟨rfl, rfl⟩

example : genPerm 2 8 2 ⟨8, 1, [[1], [2]]⟩ ⟨7, 1, [[1], [2]]⟩ exRnd [] = .error .throw := (C20_refused (by decide)).1

/-- The number of bytes that `init` asks for, `⌈L/8⌉ + 4` (RadixSort.h 150), is four less than what one of the two
correlations uses; it is enough only because correlations are made in blocks of 16 bytes. -/
theorem C20_budget {L : Nat} (h1 : 1 ≤ L) (h8 : L ≤ 8) :
    divCeil L 8 + 4 < 9 ∧ 0 + 9 ≤ 16 * ((divCeil L 8 + 4 + 15) / 16) := by
  unfold divCeil
  omega

/-- The hypotheses of C20: three rows, keys of three bits, digits of two bits, a second round with a shared permutation. -/
def exRnd3 : RoundRnd where
  oh := fun _ _ => true
  inj := [List.replicate 12 ⟨3, 8, true⟩]
  otA := [List.replicate 12 ⟨5, 77, false⟩]
  otB := [List.replicate 4 ⟨9, 1, true⟩, List.replicate 8 ⟨0, 4, false⟩]
  mask := fun i => BitVec.ofNat 32 (i + 5)

theorem exRnd3_ok : exRnd3.Ok 3 2 := ⟨by decide, by decide, by decide, by decide, by decide⟩

example : ∃ rest : List (ComposedPerm × ComposedPerm × RoundRnd), divCeil 3 2 ≤ rest.length + 1 ∧ (∀ s ∈ rest, PreOk 3 2 s) ∧
    Shape 3 1 [[(5 : Byte)], [3], [1]] ∧ Shape 3 1 [[(1 : Byte)], [2], [0]] ∧ 3 ≤ 8 * 1 := by
  obtain ⟨c0, c1, h, -⟩ := exComposed
  refine ⟨[(c0, c1, exRnd3)], by simp [divCeil], ?_, by unfold Shape; decide, by unfold Shape; decide, by decide⟩
  intro s hs
  rw [List.mem_singleton] at hs
  subst hs
  exact ⟨16, 0, 16, 0, h, by decide, by decide, exRnd3_ok⟩

/-- A key of no bits leaves the buffers: there is no bit to extract and no round. -/
theorem C20_no_bits : genPerm 2 0 2 ⟨0, 0, [[], []]⟩ ⟨0, 0, [[], []]⟩ exRnd [] = .error .ub := by decide +kernel

end Radix
end SecJoin
