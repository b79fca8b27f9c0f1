import Verif.Util.Lemmas
/-!
# Properties C09 (matrices and vectors), C13, C15, C59, C60

`bitOf r k` is bit `k` of a row of bytes and `Shape n c rows` says that there are `n` rows of `c`
bytes; both are independent of the code.
-/
namespace SecJoin

/-! ## C15 trimming and comparing -/

/-- Trimming to `bits` bits keeps bits `0 .. bits-1` of every row and zeroes the others; the shape
of the matrix stays. -/
theorem C15_trim {a : Mat Row} {n bits : Nat} (ha : Shape n a.cols a.rows)
    (h : bits ≤ 8 * a.cols) :
    ∃ b, trimMat a bits = .ok b ∧ b.cols = a.cols ∧ Shape n a.cols b.rows ∧
      ∀ i < n, ∀ k, bitOf (b.rows.getD i []) k = (decide (k < bits) && bitOf (a.rows.getD i []) k) := by
  obtain ⟨b, h1, h2, h3, h4⟩ := trimMat_ok ha h
  refine ⟨b, h1, h2, h3, ?_⟩
  intro i hi k
  rw [h4 i hi k]
  by_cases hk : k < bits <;> simp [hk]

/-- Trimming to more bits than a row has is refused. -/
theorem C15_trim_refused {a : Mat Row} {bits : Nat} (h : 8 * a.cols < bits) :
    trimMat a bits = .error .throw := by
  unfold trimMat
  have t1 : decide (bits > a.cols * 8) = true := by simp; omega
  simp only [t1, throwIf_true, err_bind]

/-- Comparing two matrices at `bits` bits answers whether the first `bits` bits of all rows agree,
whatever the bytes after them are and even if the rows have different widths. -/
theorem C15_areEqual {a b : Mat Row} {n bits : Nat} (ha : Shape n a.cols a.rows)
    (hb : Shape n b.cols b.rows) (h1 : bits ≤ 8 * a.cols) (h2 : bits ≤ 8 * b.cols) :
    ∃ e, areEqualMat a b bits = .ok e ∧
      (e = true ↔ ∀ i < n, ∀ k < bits, bitOf (a.rows.getD i []) k = bitOf (b.rows.getD i []) k) :=
  ⟨_, areEqualMat_ok ha hb (by omega) (by omega), by rw [decide_eq_true_iff]⟩

/-- Comparing matrices with different numbers of rows, or at more bits than one of them has, is
refused. -/
theorem C15_areEqual_refused {a b : Mat Row} {bits : Nat}
    (h : a.rows.length ≠ b.rows.length ∨ 8 * a.cols < bits ∨ 8 * b.cols < bits) :
    areEqualMat a b bits = .error .throw := by
  unfold areEqualMat
  by_cases h1 : a.rows.length = b.rows.length
  · have t0 : (a.rows.length != b.rows.length) = false := by simp [h1]
    by_cases h2 : 8 * a.cols < bits
    · have t1 : decide (a.cols * 8 < bits) = true := by simp; omega
      simp only [t0, t1, throwIf_false, throwIf_true, ok_bind, err_bind]
    · have t1 : decide (a.cols * 8 < bits) = false := by simp; omega
      have t2 : decide (b.cols * 8 < bits) = true := by
        simp only [decide_eq_true_eq]; omega
      simp only [t0, t1, t2, throwIf_false, throwIf_true, ok_bind, err_bind]
  · simp only [throwIf_ne h1, err_bind]

/-- The comparison of two single rows. -/
theorem C15_areEqual_span {a b : Row} {bits : Nat} (h1 : bits ≤ 8 * a.length)
    (h2 : bits ≤ 8 * b.length) :
    ∃ e, areEqualSpan a b bits = .ok e ∧ (e = true ↔ ∀ k < bits, bitOf a k = bitOf b k) :=
  ⟨_, areEqualSpan_ok h1 h2, by rw [decide_eq_true_iff]⟩

/-- Trimming never changes the outcome of a comparison at the same width. -/
theorem C15_trim_areEqual {a b a' b' : Mat Row} {n bits : Nat} (ha : Shape n a.cols a.rows)
    (hb : Shape n b.cols b.rows) (ea : trimMat a bits = .ok a') (eb : trimMat b bits = .ok b') :
    areEqualMat a' b' bits = areEqualMat a b bits ∧ areEqualMat a' b bits = areEqualMat a b bits ∧
      areEqualMat a a' bits = .ok true := by
  have h1 : bits ≤ 8 * a.cols := by
    by_contra hc
    rw [C15_trim_refused (by omega)] at ea
    cases ea
  have h2 : bits ≤ 8 * b.cols := by
    by_contra hc
    rw [C15_trim_refused (by omega)] at eb
    cases eb
  obtain ⟨x, e1, c1, s1, p1⟩ := trimMat_ok ha h1
  obtain ⟨y, e2, c2, s2, p2⟩ := trimMat_ok hb h2
  rw [ea] at e1; cases e1
  rw [eb] at e2; cases e2
  rw [← c1] at s1; rw [← c2] at s2
  rw [areEqualMat_ok ha hb (by omega) (by omega), areEqualMat_ok s1 s2 (by omega) (by omega),
    areEqualMat_ok s1 hb (by omega) (by omega), areEqualMat_ok ha s1 (by omega) (by omega)]
  refine ⟨?_, ?_, ?_⟩
  · congr 1
    rw [Bool.eq_iff_iff, decide_eq_true_iff, decide_eq_true_iff]
    constructor <;> intro h i hi k hk
    · have := h i hi k hk
      rwa [p1 i hi, p2 i hi, if_pos hk, if_pos hk] at this
    · rw [p1 i hi, p2 i hi, if_pos hk, if_pos hk]
      exact h i hi k hk
  · congr 1
    rw [Bool.eq_iff_iff, decide_eq_true_iff, decide_eq_true_iff]
    constructor <;> intro h i hi k hk
    · have := h i hi k hk
      rwa [p1 i hi, if_pos hk] at this
    · rw [p1 i hi, if_pos hk]
      exact h i hi k hk
  · congr 1
    rw [decide_eq_true_iff]
    intro i hi k hk
    rw [p1 i hi, if_pos hk]

/-- `a == b` on bit matrices holds exactly when they have the same number of rows, the same
declared width and the same bits in that width. -/
theorem C15_binMatrix_eq {a b : BinMatrix} {n m : Nat} (ha : Shape n a.cols a.rows)
    (hb : Shape m b.cols b.rows) (h1 : a.bits ≤ 8 * a.cols) (h2 : b.bits ≤ 8 * b.cols) :
    ∃ e, a.beq b = .ok e ∧
      (e = true ↔ n = m ∧ a.bits = b.bits ∧
        ∀ i < n, ∀ k < a.bits, bitOf (a.rows.getD i []) k = bitOf (b.rows.getD i []) k) := by
  unfold BinMatrix.beq
  by_cases hn : n = m
  · subst hn
    rw [if_neg (by rw [ha.1, hb.1]; simp)]
    by_cases hbits : a.bits = b.bits
    · rw [if_neg (by simpa using hbits)]
      by_cases hc : a.rows.length * a.cols = b.rows.length * b.cols ∧ a.bits = a.cols * 8
      · rw [if_pos hc]
        refine ⟨_, rfl, ?_⟩
        rw [beq_iff_eq]
        constructor
        · intro h
          exact ⟨rfl, hbits, fun i hi k hk => by rw [h]⟩
        · intro ⟨_, _, h⟩
          by_cases hz : n = 0
          · have e1 := ha.1; have e2 := hb.1
            rw [hz] at e1 e2
            rw [List.length_eq_zero_iff.1 e1, List.length_eq_zero_iff.1 e2]
          · have hcc : a.cols = b.cols := by
              have := hc.1
              rw [ha.1, hb.1] at this
              exact Nat.eq_of_mul_eq_mul_left (by omega) this
            refine rows_ext ha (hcc ▸ hb) ?_
            intro i hi k hk
            exact h i hi k (by omega)
      · rw [if_neg hc]
        refine ⟨_, areEqualMat_ok (a := a.mat) (b := b.mat) ha hb ?_ ?_, ?_⟩
        · show a.bits ≤ a.cols * 8; omega
        · show a.bits ≤ b.cols * 8; omega
        · rw [decide_eq_true_iff]
          exact ⟨fun h => ⟨rfl, hbits, h⟩, fun h => h.2.2⟩
    · rw [if_pos hbits]
      exact ⟨_, rfl, by simp [hbits]⟩
  · rw [if_pos (by rw [ha.1, hb.1]; exact hn)]
    exact ⟨_, rfl, by simp [hn]⟩

/-- Two rows of three bytes that agree in 11 bits but not in 12. -/
example : areEqualMat ⟨3, [[0xab, 0xf7, 0x12], [1, 2, 3]]⟩ ⟨3, [[0xab, 0x0f, 0x55], [1, 2, 4]]⟩ 11 = .ok true
    ∧ areEqualMat ⟨3, [[0xab, 0xf7, 0x12], [1, 2, 3]]⟩ ⟨3, [[0xab, 0x0f, 0x55], [1, 2, 4]]⟩ 12
      = .ok false
    ∧ trimMat ⟨3, [[0xab, 0xf7, 0x12], [1, 2, 3]]⟩ 11 = .ok ⟨3, [[0xab, 0x07, 0], [1, 2, 0]]⟩ := by
  decide

example : Shape 2 3 [[0xab, 0xf7, 0x12], [1, 2, 3]] ∧ 11 ≤ 8 * 3 := by
  refine ⟨⟨rfl, by decide⟩, by decide⟩

example : (BinMatrix.mk 11 2 [[1, 2]]).beq ⟨11, 3, [[1, 0xfa, 7]]⟩ = .ok true := by decide

/-! ## C09 sharing and revealing -/

/-- Sharing a bit matrix and revealing gives back every bit of the declared width, for every random
stream; no share has a bit set beyond the declared width. The result compares equal to the
original, and is the original if that has no garbage beyond its width. -/
theorem C09_bin {x : BinMatrix} {n : Nat} (hx : Shape n x.cols x.rows)
    (hc : x.cols = divCeil x.bits 8) (rnd : Nat → Nat → Byte) :
    ∃ s0 s1 r, shareBin rnd x = .ok (s0, s1) ∧ revealBin s0 s1 = .ok r ∧
      (∀ i < n, ∀ k, x.bits ≤ k →
        bitOf (s0.rows.getD i []) k = false ∧ bitOf (s1.rows.getD i []) k = false) ∧
      r.bits = x.bits ∧ r.cols = x.cols ∧ Shape n x.cols r.rows ∧
      (∀ i < n, ∀ k, bitOf (r.rows.getD i []) k =
        (decide (k < x.bits) && bitOf (x.rows.getD i []) k)) ∧
      r.beq x = .ok true ∧
      ((∀ i < n, ∀ k, x.bits ≤ k → bitOf (x.rows.getD i []) k = false) → r = x) := by
  obtain ⟨bits, cols, rows⟩ := x
  simp only at hx hc
  subst hc
  have hn := hx.1
  subst hn
  have hR := randRows_shape rnd rows.length (divCeil bits 8)
  have hX : Shape rows.length (divCeil bits 8)
      (List.zipWith xorRow rows (randRows rnd rows.length (divCeil bits 8))) := xm_shape hx hR
  obtain ⟨y0, e0, sh0, p0⟩ := maskRows_ok hR
  obtain ⟨y1, e1, sh1, p1⟩ := maskRows_ok hX
  have hr : Shape rows.length (divCeil bits 8) (List.zipWith xorRow y0 y1) := xm_shape sh0 sh1
  have hbit : ∀ i < rows.length, ∀ k, bitOf ((List.zipWith xorRow y0 y1).getD i []) k =
      (decide (k < bits) && bitOf (rows.getD i []) k) := by
    intro i hi k
    rw [xm_getD sh0 sh1 hi, bitOf_xorRow (by rw [shape_getD sh0 hi, shape_getD sh1 hi]),
      p0 i hi, p1 i hi, xm_getD hx hR hi,
      bitOf_xorRow (by rw [shape_getD hx hi, shape_getD hR hi])]
    by_cases hk : k < bits
    · rw [if_pos hk, if_pos hk, decide_eq_true hk]
      cases bitOf ((randRows rnd rows.length (divCeil bits 8)).getD i []) k <;>
        cases bitOf (rows.getD i []) k <;> rfl
    · rw [if_neg hk, if_neg hk, decide_eq_false hk]; rfl
  have hle : bits ≤ 8 * divCeil bits 8 := by rw [divCeil]; omega
  refine ⟨⟨bits, divCeil bits 8, y0⟩, ⟨bits, divCeil bits 8, y1⟩,
    ⟨bits, divCeil bits 8, List.zipWith xorRow y0 y1⟩, ?_, ?_, ?_, rfl, rfl, hr, hbit, ?_, ?_⟩
  · simp only [shareBin, ne_eq, not_true_eq_false, if_false, e0, e1, ok_bind]
  · have t0 : (y0.length != y1.length) = false := by simp [sh0.1, sh1.1]
    simp [revealBin, t0]
  · intro i hi k hk
    have hk : bits ≤ k := hk
    show bitOf (y0.getD i []) k = false ∧ bitOf (y1.getD i []) k = false
    rw [p0 i hi, p1 i hi, if_neg (by omega), if_neg (by omega)]
    exact ⟨rfl, rfl⟩
  · obtain ⟨e, he, hi⟩ := C15_binMatrix_eq (a := ⟨bits, divCeil bits 8, List.zipWith xorRow y0 y1⟩)
      (b := ⟨bits, divCeil bits 8, rows⟩) hr hx hle hle
    rw [he]
    congr 1
    rw [hi]
    refine ⟨rfl, rfl, ?_⟩
    intro i hi k hk
    show bitOf ((List.zipWith xorRow y0 y1).getD i []) k = _
    have hk : k < bits := hk
    rw [hbit i hi k, decide_eq_true hk]; rfl
  · intro hz
    congr 1
    apply rows_ext hr hx
    intro i hi k _
    rw [hbit i hi k]
    by_cases hk : k < bits
    · rw [decide_eq_true hk]; rfl
    · rw [decide_eq_false hk, hz i hi k (by simpa using hk)]; rfl

/-- The same for byte matrices with an explicit bit count. -/
theorem C09_bytes {x : Mat Row} {n bits : Nat} (hx : Shape n x.cols x.rows)
    (hc : x.cols = divCeil bits 8) (rnd : Nat → Nat → Byte) :
    ∃ s0 s1 r, shareBytes rnd x bits = .ok (s0, s1) ∧ revealBytes s0 s1 = .ok r ∧
      (∀ i < n, ∀ k, bits ≤ k →
        bitOf (s0.rows.getD i []) k = false ∧ bitOf (s1.rows.getD i []) k = false) ∧
      r.cols = x.cols ∧ Shape n x.cols r.rows ∧
      (∀ i < n, ∀ k, bitOf (r.rows.getD i []) k =
        (decide (k < bits) && bitOf (x.rows.getD i []) k)) ∧
      (bits = 8 * x.cols → r = x) := by
  obtain ⟨s0, s1, r, h1, h2, h3, h4, h5, h6, h7, h8, h9⟩ :=
    C09_bin (x := ⟨bits, x.cols, x.rows⟩) hx hc rnd
  simp only [shareBin, hc, ne_eq, not_true_eq_false, if_false] at h1
  obtain ⟨y0, e0, sh0, p0⟩ := maskRows_ok (randRows_shape rnd x.rows.length (divCeil bits 8))
  obtain ⟨y1, e1, sh1, p1⟩ := maskRows_ok (bits := bits) (n := x.rows.length)
    (x := List.zipWith xorRow x.rows (randRows rnd x.rows.length (divCeil bits 8)))
    (xm_shape (by rw [hc, ← hx.1] at hx; exact hx) (randRows_shape rnd _ _))
  rw [e0, ok_bind, e1, ok_bind] at h1
  cases h1
  have t0 : (y0.length != y1.length) = false := by simp [sh0.1, sh1.1]
  simp [revealBin, t0] at h2
  subst h2
  refine ⟨⟨x.cols, y0⟩, ⟨x.cols, y1⟩, ⟨x.cols, List.zipWith xorRow y0 y1⟩, ?_, ?_, h3, rfl, h6,
    h7, ?_⟩
  · simp only [shareBytes, hc, bne_self_eq_false, throwIf_false, ok_bind, e0, e1]
  · simp only [revealBytes, t0, bne_self_eq_false, throwIf_false, ok_bind]
  · intro hb
    have := h9 (fun i hi k hk => bitOf_ge (by
      rw [show (BinMatrix.mk bits x.cols x.rows).rows = x.rows from rfl, shape_getD hx hi]
      exact hb ▸ hk))
    simp only [BinMatrix.mk.injEq] at this
    rw [this.2.2]

/-- Sharing with a bit count that does not fit the width is refused. -/
theorem C09_bytes_refused {x : Mat Row} {bits : Nat} (hc : x.cols ≠ divCeil bits 8)
    (rnd : Nat → Nat → Byte) : shareBytes rnd x bits = .error .throw := by
  simp only [shareBytes, throwIf_ne hc, err_bind]

/-- Revealing shares of different shapes is refused. -/
theorem C09_reveal_refused {a b : BinMatrix} (h : a.rows.length ≠ b.rows.length ∨ a.bits ≠ b.bits) :
    revealBin a b = .error .throw := by
  unfold revealBin
  by_cases h1 : a.rows.length = b.rows.length
  · have h2 : a.bits ≠ b.bits := by omega
    simp only [h1, bne_self_eq_false, throwIf_false, ok_bind, throwIf_ne h2, err_bind]
  · simp only [throwIf_ne h1, err_bind]

/-- XOR sharing of a matrix of words of any width. -/
theorem C09_xor_words {w n : Nat} {d : Mat (List (BitVec w))} (hn : d.rows.length = n)
    (hc : ∀ r ∈ d.rows, r.length = d.cols) (rnd : Nat → Nat → BitVec w) :
    xorRevealMat (xorShareMat rnd d).1 (xorShareMat rnd d).2 = .ok d := by
  subst hn
  obtain ⟨h1, h2⟩ := randRows_dims rnd d.rows.length d.cols
  simp only [xorRevealMat, xorShareMat]
  rw [if_pos ⟨by simp [h1], trivial⟩,
    mat_zip_cancel (fun a b => by rw [BitVec.xor_comm a b, ← BitVec.xor_assoc]; simp) rfl h1 hc h2]

/-- Additive sharing modulo `2^32` of a matrix. -/
theorem C09_add_words {n : Nat} {d : Mat (List (BitVec 32))} (hn : d.rows.length = n)
    (hc : ∀ r ∈ d.rows, r.length = d.cols) (rnd : Nat → Nat → BitVec 32) :
    addRevealMat (addShareMat rnd d).1 (addShareMat rnd d).2 = .ok d := by
  subst hn
  obtain ⟨h1, h2⟩ := randRows_dims rnd d.rows.length d.cols
  simp only [addRevealMat, addShareMat]
  rw [if_pos ⟨by simp [h1], trivial⟩,
    mat_zip_cancel (fun a b => by rw [BitVec.add_comm, BitVec.sub_add_cancel]) rfl h1 hc h2]

/-- Additive sharing of a vector: the shares add up to the value, entry by entry. -/
theorem C09_add_vec (x : List (BitVec 32)) (rnd : Nat → BitVec 32) :
    (addShareVec rnd x).1.length = x.length ∧
    List.zipWith (· + ·) (addShareVec rnd x).1 (addShareVec rnd x).2 = x :=
  ⟨by simp [addShareVec], word_zip_cancel (c := x.length) (r := (List.range x.length).map rnd)
    (fun a b => by rw [BitVec.add_comm, BitVec.sub_add_cancel]) rfl (by simp)⟩

/-- XOR sharing of a vector, revealed as a shared permutation is. -/
theorem C09_xor_vec (x : List (BitVec 32)) (rnd0 rnd : Nat → BitVec 32) :
    revealAdditivePerm (xorShareVec rnd0 rnd x).1 (xorShareVec rnd0 rnd x).2 = .ok x := by
  unfold revealAdditivePerm
  rw [if_pos (by simp [xorShareVec])]
  exact congrArg Except.ok (word_zip_cancel (c := x.length)
    (r := (List.range ((List.range x.length).map rnd0).length).map rnd)
    (fun a b => by rw [BitVec.xor_comm a b, ← BitVec.xor_assoc]; simp) rfl (by simp))

/-- The overload of `reveal` for byte vectors adds instead of XORing: it does not reveal XOR shares
(such as the shares of the active flags that `Table::share` makes). -/
theorem C09_vecU8_not_xor : ∃ (x s0 : List Byte), x.length = s0.length ∧
    revealVecU8 s0 (List.zipWith (· ^^^ ·) x s0) ≠ .ok x :=
  ⟨[0], [1], rfl, by decide⟩

/-- It does reveal additive shares modulo `2^8`. -/
theorem C09_vecU8_add (x s0 : List Byte) (h : x.length = s0.length) :
    revealVecU8 s0 (List.zipWith (· - ·) x s0) = .ok x := by
  rw [revealVecU8, if_pos (by simp [h]), word_zip_cancel (c := x.length)
    (fun a b => by rw [BitVec.add_comm, BitVec.sub_add_cancel]) rfl h.symm]

/-- A concrete sharing of two 11 bit entries with garbage above the width: the shares are masked
and the reveal drops the garbage. -/
example : shareBin (fun i j => BitVec.ofNat 8 (37 * i + 91 * j + 200)) ⟨11, 2, [[0xab, 0xf7], [1, 2]]⟩
      = .ok (⟨11, 2, [[200, 3], [237, 0]]⟩, ⟨11, 2, [[0x63, 4], [236, 2]]⟩)
    ∧ revealBin ⟨11, 2, [[200, 3], [237, 0]]⟩ ⟨11, 2, [[0x63, 4], [236, 2]]⟩
      = .ok ⟨11, 2, [[0xab, 7], [1, 2]]⟩ := by decide

/-- The hypotheses of `C09_bin` hold for it. -/
example : Shape 2 2 [[0xab, 0xf7], [1, 2]] ∧ 2 = divCeil 11 8 := by
  refine ⟨⟨rfl, by decide⟩, by decide⟩

/-! ## C13 hexadecimal text -/

/-- Value of a hexadecimal digit: its position in the list of digits of either case. -/
def digitValue (c : Byte) : Option Nat :=
  if c ∈ "0123456789abcdef".toList.map (fun x => BitVec.ofNat 8 x.toNat) then
    some (("0123456789abcdef".toList.map (fun x => BitVec.ofNat 8 x.toNat)).idxOf c)
  else if c ∈ "0123456789ABCDEF".toList.map (fun x => BitVec.ofNat 8 x.toNat) then
    some (("0123456789ABCDEF".toList.map (fun x => BitVec.ofNat 8 x.toNat)).idxOf c)
  else none

/-- The bytes a text of hexadecimal digits stands for. -/
def textValue : List Byte → Option (List Byte)
  | [] => some []
  | [_] => none
  | a :: b :: t => do
    let x ← digitValue a
    let y ← digitValue b
    let r ← textValue t
    some (BitVec.ofNat 8 (16 * x + y) :: r)

theorem fromHexDigit_spec : ∀ a : Byte, fromHexDigit a =
    match digitValue a with
    | some v => .ok (BitVec.ofNat 8 v)
    | none => .error .throw := by
  decide +kernel

theorem digitValue_lt : ∀ a : Byte, (digitValue a).all (· < 16) = true := by decide +kernel

theorem nibbles : ∀ x : Fin 16, ∀ y : Fin 16,
    (BitVec.ofNat 8 x.val <<< 4 ||| BitVec.ofNat 8 y.val) = BitVec.ofNat 8 (16 * x.val + y.val) := by
  decide +kernel

/-- Decoding a text of the right length gives the bytes it stands for and throws if there is a
digit that is not hexadecimal; a text of the wrong length is refused. -/
theorem C13_decode (t : List Byte) (n : Nat) :
    fromHex t n =
      if t.length = 2 * n then
        (match textValue t with
          | some d => .ok d
          | none => .error .throw)
      else .error .throw := by
  unfold fromHex
  by_cases h : t.length = 2 * n
  · rw [if_pos h]
    have t0 : (t.length != n * 2) = false := by simp; omega
    rw [t0, throwIf_false, ok_bind]
    induction n generalizing t with
    | zero =>
      have : t = [] := List.length_eq_zero_iff.1 h
      subst this
      rfl
    | succ n ih =>
      match t, h with
      | a :: b :: t, h =>
        have ht : t.length = 2 * n := by simp at h; omega
        rw [fromHexLoop_cons, ih t ht (by simp; omega), textValue, fromHexPair,
          fromHexDigit_spec a, fromHexDigit_spec b]
        have ha := digitValue_lt a
        have hb := digitValue_lt b
        cases h1 : digitValue a with
        | none => rfl
        | some x =>
          cases h2 : digitValue b with
          | none => rfl
          | some y =>
            rw [h1] at ha; rw [h2] at hb
            simp only [Option.all_some, decide_eq_true_eq] at ha hb
            have := nibbles ⟨x, ha⟩ ⟨y, hb⟩
            simp only at this
            cases textValue t with
            | none => rfl
            | some r => simp only [ok_bind, this]; rfl
  · rw [if_neg h, throwIf_ne (by omega), err_bind]

/-- Encoding and decoding gives back every byte string. -/
theorem C13_roundtrip (d : List Byte) : fromHex (hex d) d.length = .ok d := by
  unfold fromHex
  rw [hex_length, bne_self_eq_false, throwIf_false, ok_bind]
  induction d with
  | nil => rfl
  | cons b t ih =>
    rw [List.length_cons, hex, fromHexLoop_cons, fromHexPair_hex, ok_bind, ih, ok_bind]

/-- Upper-case of an ASCII letter. -/
def upper (c : Byte) : Byte := if 97 ≤ c.toNat ∧ c.toNat ≤ 122 then c - 32 else c

/-- Upper and lower case decode alike. -/
theorem C13_case (t : List Byte) (n : Nat) : fromHex (t.map upper) n = fromHex t n := by
  have hd : ∀ c : Byte, digitValue (upper c) = digitValue c := by decide +kernel
  have ht : ∀ t : List Byte, textValue (t.map upper) = textValue t := by
    intro t
    induction t using textValue.induct with
    | case1 => rfl
    | case2 => rfl
    | case3 a b t ih => simp only [List.map_cons, textValue, hd, ih]
  rw [C13_decode, C13_decode, List.length_map, ht]

/-- Encoded text consists of the digits `0-9a-f` only and has two digits per byte. -/
theorem C13_encode_digits (d : List Byte) : (hex d).length = 2 * d.length ∧
    ∀ c ∈ hex d, c ∈ "0123456789abcdef".toList.map (fun x => BitVec.ofNat 8 x.toNat) := by
  refine ⟨by rw [hex_length]; omega, ?_⟩
  have h : ∀ b : Byte, hexDigit (b.toNat / 16) ∈
      "0123456789abcdef".toList.map (fun x => BitVec.ofNat 8 x.toNat) ∧
      hexDigit (b.toNat % 16) ∈ "0123456789abcdef".toList.map (fun x => BitVec.ofNat 8 x.toNat) := by
    decide +kernel
  induction d with
  | nil => simp [hex]
  | cons b t ih =>
    intro c hc
    simp only [hex, List.mem_cons] at hc
    rcases hc with rfl | rfl | hc
    · exact (h b).1
    · exact (h b).2
    · exact ih c hc

/-- "0aFf" decodes to the bytes 10, 255; "0g" is refused. -/
example : fromHex [48, 97, 70, 102] 2 = .ok [10, 255] ∧ hex [10, 255] = [48, 97, 102, 102] ∧
    fromHex [48, 103] 1 = .error .throw ∧ fromHex [48] 1 = .error .throw := by decide

/-! ## C59 storage of bit matrices -/

/-- Full property: a bit matrix made for `bits` bits per row has room for them. It holds for the
default alignment 1 and fails for other alignments, see `C59_alignment_too_small`. -/
theorem C59_storage_partial (rows bits : Nat) :
    let m := BinMatrix.zero rows bits
    m.bits = bits ∧ m.rows.length = rows ∧ (∀ r ∈ m.rows, r.length = m.cols) ∧
      bits ≤ 8 * m.cols ∧ 8 * m.cols < bits + 8 := by
  have h : 8 * ((bits + 8 - 1) / 8) ≥ bits ∧ 8 * ((bits + 8 - 1) / 8) < bits + 8 := by omega
  refine ⟨rfl, by simp [BinMatrix.zero], ?_, ?_, ?_⟩
  · intro r hr
    simp only [BinMatrix.zero, List.mem_replicate] at hr
    rw [hr.2]; simp [BinMatrix.zero]
  · simpa [BinMatrix.zero, divCeil] using h.1
  · simpa [BinMatrix.zero, divCeil] using h.2

/-- With an alignment of `a > 1` bytes the row is `a` times too short: for every such alignment and
every width of at least two bytes the row does not have room for the declared bits. -/
theorem C59_alignment_too_small {a bits : Nat} (ha : 2 ≤ a) (hb : 8 < bits) (rows : Nat) :
    8 * (BinMatrix.zero rows bits a).cols < bits := by
  simp only [BinMatrix.zero, divCeil]
  have h1 : (bits + 8 * a - 1) / (8 * a) ≤ (bits + 15) / 16 := by
    rw [Nat.div_le_iff_le_mul_add_pred (by omega)]
    have : 16 * ((bits + 15) / 16) ≥ bits := by omega
    have h2 : 8 * a * ((bits + 15) / 16) ≥ bits :=
      Nat.le_trans this (Nat.mul_le_mul_right _ (by omega))
    omega
  omega

/-- Narrowing the declared width is accepted exactly when the row has room, and then changes
nothing else. -/
theorem C59_reshape (m : BinMatrix) (b : Nat) :
    m.reshape b = if b ≤ 8 * m.cols then .ok ⟨b, m.cols, m.rows⟩ else .error .throw := by
  unfold BinMatrix.reshape
  by_cases h : b ≤ 8 * m.cols
  · have : decide (b > m.cols * 8) = false := by simp; omega
    rw [if_pos h, this]; rfl
  · have : decide (b > m.cols * 8) = true := by simp; omega
    rw [if_neg h, this]; rfl

/-- A view of `count` rows from row `i` shows exactly these rows; a view starting at or reaching
past the end is refused. -/
theorem C59_subMatrix (m : BinMatrix) (i count : Nat) :
    (i < m.rows.length → i + count ≤ m.rows.length →
      ∃ v, m.subMatrix i count = .ok v ∧ v.cols = m.cols ∧ v.rows.length = count ∧
        ∀ j < count, v.rows[j]? = m.rows[i + j]?) ∧
    (m.rows.length ≤ i ∨ m.rows.length < i + count → m.subMatrix i count = .error .throw) := by
  unfold BinMatrix.subMatrix
  constructor
  · intro h1 h2
    have t1 : decide (i ≥ m.rows.length) = false := by simp; omega
    have t2 : decide (i + count > m.rows.length) = false := by simp; omega
    simp only [t1, t2, throwIf_false, ok_bind]
    refine ⟨_, rfl, rfl, by simp; omega, ?_⟩
    intro j hj
    show ((m.rows.drop i).take count)[j]? = _
    rw [List.getElem?_take_of_lt hj, List.getElem?_drop]
  · intro h
    by_cases h1 : m.rows.length ≤ i
    · have t1 : decide (i ≥ m.rows.length) = true := by simpa using h1
      simp only [t1, throwIf_true, err_bind]
    · have t1 : decide (i ≥ m.rows.length) = false := by simp; omega
      have t2 : decide (i + count > m.rows.length) = true := by simp; omega
      simp only [t1, t2, throwIf_false, throwIf_true, ok_bind, err_bind]

example : (BinMatrix.zero 3 11).cols = 2 ∧ (BinMatrix.zero 3 64 8).cols = 1 := by decide

/-! ## C60 sign extension -/

/-- Sign-extending a 64-bit value from bit `bit` gives the two's complement value of its low
`bit + 1` bits. -/
theorem C60_signExtend (val : BitVec 64) (bit : Nat) (h : bit < 63) :
    ∃ r, signExtend64 val bit = .ok r ∧ r.toInt = (val.setWidth (bit + 1)).toInt := by
  refine ⟨_, by rw [signExtend64, if_neg (by omega)], ?_⟩
  have key : (if ((val &&& (1#64 <<< bit)) != 0) = true then val ||| BitVec.allOnes 64 <<< (bit + 1)
      else val &&& ~~~(BitVec.allOnes 64 <<< (bit + 1))) =
      (val.setWidth (bit + 1)).signExtend 64 := by
    have hs : ((val &&& (1#64 <<< bit)) != 0) = val.getLsbD bit := by
      rw [Bool.eq_iff_iff, bne_iff_ne]
      constructor
      · intro hne
        by_contra hc
        apply hne
        apply BitVec.eq_of_getLsbD_eq
        intro i hi
        simp only [BitVec.getLsbD_and, BitVec.getLsbD_shiftLeft, hi, decide_true, Bool.true_and]
        by_cases hib : i = bit
        · subst hib; simp at hc; simp [hc]
        · by_cases hlt : i < bit
          · simp [hlt]
          · have : i - bit ≠ 0 := by omega
            simp [this]
      · intro hb he
        have := congrArg (fun v => BitVec.getLsbD v bit) he
        simp [hb] at this
        omega
    apply BitVec.eq_of_getLsbD_eq
    intro i hi
    rw [BitVec.getLsbD_signExtend, BitVec.getLsbD_setWidth, hs, BitVec.msb_eq_getLsbD_last,
      BitVec.getLsbD_setWidth]
    by_cases hb : val.getLsbD bit = true
    · rw [if_pos hb]
      by_cases hlt : i < bit + 1
      · simp [hlt, hi]
      · have : i - (bit + 1) < 64 := by omega
        simp [hlt, hi, hb, this, -BitVec.reduceAllOnes]
    · rw [if_neg hb]
      simp only [Bool.not_eq_true] at hb
      by_cases hlt : i < bit + 1
      · simp [hlt, hi]
      · have : i - (bit + 1) < 64 := by omega
        simp [hlt, hi, hb, this, -BitVec.reduceAllOnes]
  rw [key, BitVec.toInt_signExtend_of_le (by omega)]

/-- Sign-extending from bit 63, the identity mathematically, shifts by the width of the type: it is
undefined behaviour. (WhereParser.cpp 131 calls it with `v.size() - 1`.) -/
theorem C60_bit63_undefined (val : BitVec 64) : signExtend64 val 63 = .error .ub := by
  rw [signExtend64, if_pos (by omega)]

/-- Filling a byte string above bit `index` with the sign bit found there copies the sign bit to
all higher positions and keeps the lower bits. -/
theorem C60_fill (val : List Byte) (index : Nat) (h : index < 8 * val.length) :
    ∃ s r, getSign val index = .ok s ∧ s = bitOf val index ∧ fillInplace val index s = .ok r ∧
      r.length = val.length ∧
      ∀ k < 8 * val.length, bitOf r k = if k ≤ index then bitOf val k else bitOf val index := by
  have hi : index / 8 < val.length := by omega
  have fillbit : ∀ (s : Bool) (k : Nat), k < 8 → (if s then (0xff : Byte) else 0).getLsbD k = s := by
    intro s k hk
    have : ∀ s : Bool, ∀ k : Fin 8, (if s then (0xff : Byte) else 0).getLsbD k.val = s := by decide
    exact this s ⟨k, hk⟩
  have maskbit : ∀ (o k : Nat), o < 8 → k < 8 → (0xff#8 <<< (o + 1)).getLsbD k = decide (o < k) := by
    intro o k ho hk
    have : ∀ o : Fin 8, ∀ k : Fin 8, (0xff#8 <<< (o.val + 1)).getLsbD k.val = decide (o.val < k.val) := by
      decide
    exact this ⟨o, ho⟩ ⟨k, hk⟩
  have signbit : ∀ x : Byte, ∀ o : Fin 8, (((x >>> o.val) &&& 1) != 0) = x.getLsbD o.val := by
    decide +kernel
  have hget : val.getD (index / 8) 0 = val[index / 8] := by
    rw [List.getD_eq_getElem?_getD, List.getElem?_eq_getElem hi]; rfl
  have hsign : getSign val index = .ok (bitOf val index) := by
    rw [getSign, rd_ok hi, ok_bind]
    congr 1
    have := signbit val[index / 8] ⟨index % 8, by omega⟩
    simp only at this
    rw [this, bitOf, hget]
  by_cases h8 : index % 8 ≠ 0
  · refine ⟨_, _, hsign, rfl, by rw [fillInplace, if_pos h8, rd_ok hi, ok_bind], by simp; omega, ?_⟩
    intro k hk
    have hk8 : k % 8 < 8 := by omega
    by_cases h1 : k / 8 < index / 8
    · rw [if_pos (show k ≤ index by omega)]
      simp only [bitOf, List.getD_eq_getElem?_getD]
      rw [List.append_assoc, List.getElem?_append_left (by simp; omega),
        List.getElem?_take_of_lt h1]
    · by_cases h2 : k / 8 = index / 8
      · have ek : bitOf val k = val[index / 8].getLsbD (k % 8) := by
          rw [bitOf, h2, hget]
        have ei : bitOf val index = val[index / 8].getLsbD (index % 8) := by
          rw [bitOf, hget]
        rw [bitOf, List.getD_eq_getElem?_getD, List.append_assoc,
          List.getElem?_append_right (by simp; omega)]
        have : k / 8 - (val.take (index / 8)).length = 0 := by simp; omega
        rw [this]
        simp only [List.cons_append, List.nil_append, List.getElem?_cons_zero, Option.getD_some]
        rw [ek]
        by_cases hle : k ≤ index
        · rw [if_pos hle]
          split
          · rw [BitVec.getLsbD_or, maskbit _ _ (by omega) hk8, decide_eq_false (show ¬ index % 8 < k % 8 by omega)]; simp
          · rw [BitVec.getLsbD_and, BitVec.getLsbD_not, maskbit _ _ (by omega) hk8,
              decide_eq_false (show ¬ index % 8 < k % 8 by omega)]; simp [hk8]
        · rw [if_neg hle]
          split
          · rename_i hb
            rw [BitVec.getLsbD_or, maskbit _ _ (by omega) hk8, decide_eq_true (show index % 8 < k % 8 by omega), hb]; simp
          · rename_i hb
            rw [BitVec.getLsbD_and, BitVec.getLsbD_not, maskbit _ _ (by omega) hk8,
              decide_eq_true (show index % 8 < k % 8 by omega)]
            simp at hb
            simp [hb]
      · rw [if_neg (show ¬ k ≤ index by omega), bitOf, List.getD_eq_getElem?_getD, List.append_assoc,
          List.getElem?_append_right (by simp; omega)]
        have e : k / 8 - (val.take (index / 8)).length = (k / 8 - index / 8 - 1) + 1 := by simp; omega
        rw [e]
        simp only [List.cons_append, List.nil_append, List.getElem?_cons_succ]
        rw [List.getElem?_replicate, if_pos (by omega)]
        exact fillbit _ _ hk8
  · refine ⟨_, _, hsign, rfl, by rw [fillInplace, if_neg h8], by simp; omega, ?_⟩
    intro k hk
    have hk8 : k % 8 < 8 := by omega
    by_cases h1 : k / 8 < index / 8
    · rw [if_pos (show k ≤ index by omega)]
      simp only [bitOf, List.getD_eq_getElem?_getD]
      rw [List.getElem?_append_left (by simp; omega), List.getElem?_take_of_lt h1]
    · rw [bitOf, List.getD_eq_getElem?_getD, List.getElem?_append_right (by simp; omega),
        List.getElem?_replicate, if_pos (by simp; omega)]
      simp only [Option.getD_some]
      rw [fillbit _ _ hk8]
      by_cases hle : k ≤ index
      · rw [if_pos hle, show k = index by omega]
      · rw [if_neg hle]

/-- Filling with a bit other than the sign keeps the bits up to `index` only if `index` is not the
lowest bit of a byte: there, bit `index` itself is overwritten. -/
theorem C60_fill_lowest_bit_overwritten :
    ∃ (val r : List Byte) (index : Nat), index < 8 * val.length ∧
      fillInplace val index false = .ok r ∧ bitOf val index = true ∧ bitOf r index = false :=
  ⟨[0, 1], [0, 0], 8, by decide, by decide, by decide, by decide⟩

example : signExtend64 0x1f8 4 = .ok (-8) ∧ signExtend64 0x1e8 4 = .ok 8 ∧
    fillInplace [0x08, 0xf0, 0x55] 11 false = .ok [0x08, 0, 0] ∧
    fillInplace [0x08, 0x08, 0x55] 11 true = .ok [0x08, 0xf8, 0xff] := by decide

end SecJoin
