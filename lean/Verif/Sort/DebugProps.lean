import Verif.Sort.DebugSort
import Verif.Sort.RadixProps
/-!
# C77: the radix sort in debug mode
-/
namespace SecJoin
namespace Radix

/-! ## The sort -/

/-- The revealed keys have no bit from `bits` on. -/
theorem pad_lt {n bits c : Nat} {x0 x1 : List Row} (s0 : Shape n c x0) (s1 : Shape n c x1)
    (hpad : ∀ i, i < n → ∀ j, bits ≤ j → bitOf (x0.getD i []) j = bitOf (x1.getD i []) j) {i : Nat} (hi : i < n) :
    rowKey (xm x0 x1) i < 2 ^ bits := by
  apply Nat.lt_pow_two_of_testBit
  intro j hj
  rw [rowKey, xm, xm_getD s0 s1 hi, bytesNat_testBit, bitOf_xorRow (by rw [shape_getD s0 hi, shape_getD s1 hi]), hpad i hi j hj,
    Bool.xor_self]

/-- C77: with correct preprocessing and keys that are zero from `bits` on, a sort in debug mode returns what an ordinary
sort returns: no check fails and no share changes. -/
theorem C77_same {gt : Nat → Row → Row → Bool} (hgt : GtOk gt) {n bits L : Nat} (hn0 : 0 < n) (hn : n ≤ 2 ^ 32)
    (hb : 0 < bits) (h1 : 1 ≤ L) (h8 : L ≤ 8)
    {k0 k1 : BinMatrix} (b0 : k0.bits = bits) (b1 : k1.bits = bits) (c0 : bits ≤ 8 * k0.cols) (hc : k1.cols = k0.cols)
    (s0 : Shape n k0.cols k0.rows) (s1 : Shape n k0.cols k1.rows)
    (hpad : ∀ i, i < n → ∀ j, bits ≤ j → bitOf (k0.rows.getD i []) j = bitOf (k1.rows.getD i []) j)
    {first : RoundRnd} (hf : first.Ok n L) {rest : List (ComposedPerm × ComposedPerm × RoundRnd)}
    (hl : divCeil bits L ≤ rest.length + 1) (hr : ∀ s ∈ rest, PreOk n L s) :
    genPermD gt n bits L k0 k1 first rest = genPerm n bits L k0 k1 first rest :=
  genPermD_eq hgt hn0 hn hb h1 h8 b0 b1 c0 hc s0 s1 (fun _ hi => pad_lt s0 s1 hpad hi) hf hl (fun s hs => by
    obtain ⟨W0, o0, W1, o1, hv, r0, r1, ho⟩ := hr s hs
    exact ⟨W0, o0, W1, o1, validComposed_iff.mp hv, ho, r0, r1⟩)

/-- C77: so in debug mode too every row goes to its place in the stable plaintext sort. -/
theorem C77_plain {gt : Nat → Row → Row → Bool} (hgt : GtOk gt) {n bits L : Nat} (hn0 : 0 < n) (hn : n ≤ 2 ^ 32)
    (hb : 0 < bits) (h1 : 1 ≤ L) (h8 : L ≤ 8)
    {k0 k1 : BinMatrix} (b0 : k0.bits = bits) (b1 : k1.bits = bits) (c0 : bits ≤ 8 * k0.cols) (hc : k1.cols = k0.cols)
    (s0 : Shape n k0.cols k0.rows) (s1 : Shape n k0.cols k1.rows)
    (hpad : ∀ i, i < n → ∀ j, bits ≤ j → bitOf (k0.rows.getD i []) j = bitOf (k1.rows.getD i []) j)
    {first : RoundRnd} (hf : first.Ok n L) {rest : List (ComposedPerm × ComposedPerm × RoundRnd)}
    (hl : divCeil bits L ≤ rest.length + 1) (hr : ∀ s ∈ rest, PreOk n L s) :
    ∃ d0 d1, genPermD gt n bits L k0 k1 first rest = .ok (d0, d1) ∧ d0.length = n ∧ d1.length = n ∧
      ∀ i, i < n → (d0.getD i 0 ^^^ d1.getD i 0).toNat < n ∧
        (plainSort (List.zipWith xorRow k0.rows k1.rows)).getD (d0.getD i 0 ^^^ d1.getD i 0).toNat 0 = i := by
  rw [C77_same hgt hn0 hn hb h1 h8 b0 b1 c0 hc s0 s1 hpad hf hl hr]
  exact C20_plain hn0 hn hb h1 h8 b0 b1 c0 hc s0 s1 hpad hf hl hr

/-- C77: the plaintext rounds that a debug sort computes beside the secure ones. Put together they give the position of
every row in the stable sort by the whole key. -/
theorem C77_rounds {gt : Nat → Row → Row → Bool} (hgt : GtOk gt) {n bits L : Nat} (hn0 : 0 < n) (hb : 0 < bits)
    (h1 : 1 ≤ L) (h8 : L ≤ 8) {kk : Mat Row} (hk : Shape n kk.cols kk.rows) (hbits : bits ≤ 8 * kk.cols)
    (hpad : ∀ i, i < n → leValue (kk.rows.getD i []) < 2 ^ bits) :
    ∃ ps, debugGenPerm gt bits L kk = .ok ps ∧ ps.length = divCeil bits L ∧
      ps.foldl (fun d p => gather d p.pi) (List.range n) =
        (List.range n).map fun i => ((Finset.range n).filter fun a =>
          leValue (kk.rows.getD a []) < leValue (kk.rows.getD i []) ∨
            (leValue (kk.rows.getD a []) = leValue (kk.rows.getD i []) ∧ a < i)).card := by
  obtain ⟨ps, e, l, h⟩ := debugGenPerm_ok hgt hn0 hb h1 h8 hk hbits (fun i hi => by
    have := hpad i hi
    rw [leValue_eq] at this
    exact this)
  refine ⟨ps, e, l, h.trans ?_⟩
  apply List.map_congr_left
  intro i _
  simp only [leValue_eq]
  rfl

/-! ## A round -/

/-- C77: with correct preprocessing a round in debug mode returns what an ordinary round returns if every digit has at
most `L` bits, and is refused otherwise (the ordinary round then ignores the bits from `L` on). -/
theorem C77_round {n L : Nat} (h1 : 1 ≤ L) (h8 : L ≤ 8) (hn : n ≤ 2 ^ 32) {k0 k1 : List Byte}
    (l0 : k0.length = n) (l1 : k1.length = n) {r : RoundRnd} (hr : r.Ok n L) :
    ((∀ i, i < n → (k0.getD i 0 ^^^ k1.getD i 0).toNat < 2 ^ L) → genBitPermD n L k0 k1 r = genBitPerm n L k0 k1 r) ∧
    ((∃ i, i < n ∧ 2 ^ L ≤ (k0.getD i 0 ^^^ k1.getD i 0).toNat) → genBitPermD n L k0 k1 r = .error .throw) := by
  rw [genBitPermD_eq h1 h8 hn l0 l1 hr]
  refine ⟨fun h => if_pos h, fun ⟨i, hi, h⟩ => if_neg fun h' => ?_⟩
  have := h' i hi
  omega

theorem bind_ok {α β : Type} {x : Res α} {f : α → Res β} {b : β} (h : (x >>= f) = .ok b) : ∃ a, x = .ok a ∧ f a = .ok b := by
  cases x with
  | error e => cases h
  | ok a => exact ⟨a, rfl, h⟩

/-- C77: whatever the preprocessing, a round that goes through in debug mode has given every row its place in the stable
sort by digit. No assumption is made on the digits, on the number of OTs or on the randomness. -/
theorem C77_sound {n L : Nat} {k0 k1 : List Byte} {r : RoundRnd} {d0 d1 : List (BitVec 32)}
    (h : genBitPermD n L k0 k1 r = .ok (d0, d1)) :
    k0.length = n ∧ k1.length = n ∧ (List.zipWith (· ^^^ ·) d0 d1).length = n ∧
    ∀ i, i < n → ((List.zipWith (· ^^^ ·) d0 d1).getD i 0).toNat =
      ((Finset.range n).filter fun a => (k0.getD a 0 ^^^ k1.getD a 0).toNat < (k0.getD i 0 ^^^ k1.getD i 0).toNat ∨
        ((k0.getD a 0 ^^^ k1.getD a 0).toNat = (k0.getD i 0 ^^^ k1.getD i 0).toNat ∧ a < i)).card := by
  unfold genBitPermD at h
  obtain ⟨_, _, h⟩ := bind_ok h
  obtain ⟨_, hl, h⟩ := bind_ok h
  obtain ⟨_, _, h⟩ := bind_ok h
  obtain ⟨_, _, h⟩ := bind_ok h
  obtain ⟨_, _, h⟩ := bind_ok h
  obtain ⟨⟨e0, e1⟩, _, h⟩ := bind_ok h
  obtain ⟨_, hp, h⟩ := bind_ok h
  injection h with h
  injection h with ha hb
  subst ha hb
  have hl' : k0.length = n ∧ k1.length = n := by
    by_contra hc
    rw [show (k0.length != n || k1.length != n) = true by simp; omega, throwIf_true] at hl
    cases hl
  rw [checkPos_eq] at hp
  split at hp
  · rename_i hs
    have hkl : (xorBytes k0 k1).length = n := by simp [xorBytes, hl'.1, hl'.2]
    have hk : ∀ a, a < n → (xorBytes k0 k1).getD a 0 = k0.getD a 0 ^^^ k1.getD a 0 := by
      intro a ha
      simp [xorBytes, List.getD_eq_getElem?_getD, hl'.1, hl'.2, ha]
    rw [hkl] at hs
    refine ⟨hl'.1, hl'.2, hs.1, fun i hi => (hs.2 i hi).trans ?_⟩
    rw [rank_congr (k' := fun a => (k0.getD a 0 ^^^ k1.getD a 0).toNat) (fun a ha => by rw [hk a ha]) hi]
    rfl
  · cases hp

/-! ## The single checks, on the revealed values -/

/-- C77: the check of the one-hot rows accepts exactly the rows that have one in the column of their digit and zero
elsewhere. -/
theorem C77_masks {L : Nat} {k : List Byte} {f : List (List (BitVec 32))} :
    (checkMasks L k f = .ok () ↔ f.length = k.length ∧ ∀ i, i < k.length → (f.getD i []).length = 2 ^ L ∧
      ∀ j, j < 2 ^ L → (f.getD i []).getD j 0 = if (k.getD i 0).toNat = j then 1 else 0) ∧
    (checkMasks L k f = .ok () ∨ checkMasks L k f = .error .throw) := by
  rw [checkMasks_eq]
  by_cases h : MasksOk L k f
  · rw [if_pos h]; exact ⟨⟨fun _ => h, fun _ => rfl⟩, .inl rfl⟩
  · rw [if_neg h]; exact ⟨⟨fun h' => (nomatch h'), fun h' => (h h').elim⟩, .inr rfl⟩

/-- C77: the check of the running sums accepts exactly the rows of weight one with, in row `i` and column `j`, the sum of
the columns before `j` and of the rows up to `i` of column `j`, less one. -/
theorem C77_sums {L2 : Nat} {f s : List (List (BitVec 32))} (hs : s.length = f.length) :
    (checkAggregate L2 f s = .ok () ↔ (∀ i, i < f.length → ((f.getD i []).map BitVec.toNat).sum = 1) ∧
      ∀ j, j < L2 → ∀ i, i < f.length → (s.getD i []).getD j 0 =
        (∑ b ∈ Finset.range j, ∑ a ∈ Finset.range f.length, (f.getD a []).getD b 0) +
          (∑ a ∈ Finset.range (i + 1), (f.getD a []).getD j 0) - 1) ∧
    (checkAggregate L2 f s = .ok () ∨ checkAggregate L2 f s = .error .throw) := by
  unfold checkAggregate
  rw [checkWeights_eq, checkColumns_eq f s hs]
  by_cases h1 : ∀ i, i < f.length → ((f.getD i []).map BitVec.toNat).sum = 1
  · rw [if_pos h1, ok_bind]
    by_cases h2 : ∀ j, j < L2 → ∀ i, i < f.length → (s.getD i []).getD j 0 =
        (∑ b ∈ Finset.range j, ∑ a ∈ Finset.range f.length, (f.getD a []).getD b 0) +
          (∑ a ∈ Finset.range (i + 1), (f.getD a []).getD j 0) - 1
    · rw [if_pos]
      · exact ⟨⟨fun _ => ⟨h1, h2⟩, fun _ => rfl⟩, .inl rfl⟩
      · intro j hj i hi
        rw [Nat.zero_add, h2 j hj i hi]
        simp only [Nat.zero_add]
        ring
    · rw [if_neg]
      · exact ⟨⟨fun h' => (nomatch h'), fun h' => (h2 h'.2).elim⟩, .inr rfl⟩
      · intro h'
        apply h2
        intro j hj i hi
        have := h' j hj i hi
        rw [Nat.zero_add] at this
        rw [this]
        simp only [Nat.zero_add]
        ring
  · rw [if_neg h1, err_bind]
    exact ⟨⟨fun h' => (nomatch h'), fun h' => (h1 h'.1).elim⟩, .inr rfl⟩

/-- C77: the check of the inner products accepts exactly the products of the revealed bits and sums. -/
theorem C77_products {f : List Byte} {cols : Nat} {s : List (List (BitVec 32))} {d : List (BitVec 32)}
    (hl : s.length = d.length) (hs : ∀ r ∈ s, r.length = cols) (hf : s.length * cols ≤ 8 * f.length) :
    (checkInner f cols 0 s d = .ok () ↔ ∀ i, i < d.length → d.getD i 0 =
      ∑ j ∈ Finset.range cols, (if bitOf f (i * cols + j) then 1 else 0) * (s.getD i []).getD j 0) ∧
    (checkInner f cols 0 s d = .ok () ∨ checkInner f cols 0 s d = .error .throw) := by
  rw [checkInner_eq s d 0 hl hs (by rw [Nat.zero_add]; exact hf)]
  have e : ∀ b : Bool, word b = if b then 1 else 0 := by intro b; cases b <;> rfl
  simp only [Nat.zero_add, e]
  split
  · rename_i h; exact ⟨⟨fun _ => h, fun _ => rfl⟩, .inl rfl⟩
  · rename_i h; exact ⟨⟨fun h' => (nomatch h'), fun h' => (h h').elim⟩, .inr rfl⟩

/-- C77: the check of the positions accepts exactly the places of the rows in the stable sort by byte. -/
theorem C77_positions {k : List Byte} {p : List (BitVec 32)} :
    (checkPos k p = .ok () ↔ p.length = k.length ∧ ∀ i, i < k.length → (p.getD i 0).toNat =
      ((Finset.range k.length).filter fun a => (k.getD a 0).toNat < (k.getD i 0).toNat ∨
        ((k.getD a 0).toNat = (k.getD i 0).toNat ∧ a < i)).card) ∧
    (checkPos k p = .ok () ∨ checkPos k p = .error .throw) := by
  rw [checkPos_eq]
  split
  · rename_i h; exact ⟨⟨fun _ => h, fun _ => rfl⟩, .inl rfl⟩
  · rename_i h; exact ⟨⟨fun h' => (nomatch h'), fun h' => (h h').elim⟩, .inr rfl⟩

/-- C77: the check of the digits accepts exactly the digits of all rows but the last. -/
theorem C77_digits {n c begin size : Nat} {x : List Row} (hx : Shape n c x) (hs : begin + size ≤ 8 * c) {v : List Byte}
    (hv : v.length = n) :
    (checkExtract x.flatten c begin size 0 v = .ok () ↔ ∀ i, i + 1 < n → ∀ j, j < size →
      (v.getD i 0).getLsbD j = bitOf (x.getD i []) (begin + j)) ∧
    (checkExtract x.flatten c begin size 0 v = .ok () ∨ checkExtract x.flatten c begin size 0 v = .error .throw) := by
  have key : ∀ i, i < n → ∀ j, j < size → bitOf x.flatten (i * c * 8 + begin + j) = bitOf (x.getD i []) (begin + j) :=
    fun i hi j hj => by rw [Nat.add_assoc, flat_bit hx hi (by omega)]
  rw [checkExtract_eq (by omega) v 0 (by rw [hv, flatten_len hx.2, hx.1, Nat.zero_add])]
  simp only [Nat.zero_add]
  split
  · rename_i h
    refine ⟨⟨fun _ i hi j hj => ?_, fun _ => rfl⟩, .inl rfl⟩
    rw [h i (by omega) j hj, key i (by omega) j hj]
  · rename_i h
    refine ⟨⟨fun h' => (nomatch h'), fun h' => (h fun i hi j hj => ?_).elim⟩, .inr rfl⟩
    rw [h' i (by omega) j hj, key i (by omega) j hj]

/-! ## What debug mode does not see -/

/-- A comparison as `GtOk` asks for. -/
def exGt (len : Nat) (a b : Row) : Bool := decide (leValue b % 2 ^ len < leValue a % 2 ^ len)

theorem exGt_ok : GtOk exGt := fun _ _ _ _ _ => rfl

def exRndD (n L : Nat) : RoundRnd where
  oh := fun _ _ => false
  inj := [List.replicate (n * 2 ^ L) ⟨3, 8, true⟩]
  otA := [List.replicate (n * 2 ^ L) ⟨5, 77, false⟩]
  otB := [List.replicate (n * 2 ^ L) ⟨9, 1, true⟩]
  mask := fun i => BitVec.ofNat 32 (i + 5)

/-- Half of a shared identity of two rows; `e` is added to byte 5 of the sender's masks. -/
def exHalf (i : Nat) (e : Byte) : ComposedPerm :=
  ⟨i, ⟨⟨[0, 1]⟩, 1, List.replicate 2 ((List.replicate 5 0 ++ [e]) ++ List.replicate 10 0), 0⟩,
    ⟨1, List.replicate 2 (List.replicate 16 0), List.replicate 2 (List.replicate 16 0), 0⟩⟩

/-- The composition of the rounds is not checked: with one wrong byte in the preprocessed permutation the sort of the keys
2, 1 goes through in debug mode and says that they are in order. -/
theorem C77_final_false :
    (genPermD exGt 2 2 1 ⟨2, 1, [[2], [1]]⟩ ⟨2, 1, [[0], [0]]⟩ (exRndD 2 1) [(exHalf 0 0, exHalf 1 1, exRndD 2 1)]).map
      (fun d => List.zipWith (· ^^^ ·) d.1 d.2) = .ok [0, 1] ∧
    (genPermD exGt 2 2 1 ⟨2, 1, [[2], [1]]⟩ ⟨2, 1, [[0], [0]]⟩ (exRndD 2 1) [(exHalf 0 0, exHalf 1 0, exRndD 2 1)]).map
      (fun d => List.zipWith (· ^^^ ·) d.1 d.2) = .ok [1, 0] := by
  simp only [genPermD, debugGenPerm, show divCeil 2 1 - 1 = 1 from rfl, debugLoop, genPermLoopD, genBitPermD, checkPos,
    bytePerm_ok]
  decide +kernel

/-- The ordinary sort takes the bits of the last digit after the end of the key into account (C20), and the check of debug
mode does not: with such bits debug mode refuses what the ordinary sort does. -/
theorem C77_padding_false :
    genPermD exGt 2 3 2 ⟨3, 1, [[8], [1]]⟩ ⟨3, 1, [[0], [0]]⟩ (exRndD 2 2) [(exHalf 0 0, exHalf 1 0, exRndD 2 2)] =
      .error .throw ∧
    (genPerm 2 3 2 ⟨3, 1, [[8], [1]]⟩ ⟨3, 1, [[0], [0]]⟩ (exRndD 2 2) [(exHalf 0 0, exHalf 1 0, exRndD 2 2)]).map
      (fun d => List.zipWith (· ^^^ ·) d.1 d.2) = .ok [1, 0] := by
  simp only [genPermD, debugGenPerm, show divCeil 3 2 - 1 = 1 from rfl, debugLoop, genPermLoopD, genBitPermD, checkPos,
    bytePerm_ok]
  decide +kernel

/-- The digit of the last row is not checked. -/
theorem C77_last_false : checkExtract [5, 6] 1 0 4 0 [5, 0] = .ok () ∧ checkExtract [5, 6] 1 0 4 0 [0, 6] = .error .throw := by
  decide +kernel

/-! ## Examples -/

/-- The hypotheses of `C77_same`, for keys 2, 1 and a second round. -/
example : GtOk exGt ∧ divCeil 3 2 ≤ 1 + 1 ∧ (∃ rest : List (ComposedPerm × ComposedPerm × RoundRnd), rest.length = 1 ∧
    ∀ s ∈ rest, PreOk 3 2 s) ∧ Shape 3 1 [[(5 : Byte)], [3], [1]] ∧ Shape 3 1 [[(1 : Byte)], [2], [0]] ∧ exRnd3.Ok 3 2 := by
  obtain ⟨c0, c1, h, -⟩ := exComposed
  refine ⟨exGt_ok, by decide, ⟨[(c0, c1, exRnd3)], rfl, ?_⟩, by unfold Shape; decide, by unfold Shape; decide, exRnd3_ok⟩
  intro s hs
  rw [List.mem_singleton] at hs
  subst hs
  exact ⟨16, 0, 16, 0, h, by decide, by decide, exRnd3_ok⟩

/-- Digits 3, 1, 3, 0 pass; a digit of three bits does not. -/
example : (genBitPermD 4 2 [1, 0, 2, 3] [2, 1, 1, 3] exRnd).map (fun d => List.zipWith (· ^^^ ·) d.1 d.2) =
    .ok [2, 1, 3, 0] := by
  simp only [genBitPermD, checkPos, bytePerm_ok]
  decide +kernel
example : genBitPermD 4 2 [1, 0, 2, 3] [2, 1, 1, 7] exRnd = .error .throw := by decide +kernel

/-- The plaintext rounds for the keys 3, 1, 2, 0. -/
example : debugGenPerm exGt 2 1 ⟨1, [[3], [1], [2], [0]]⟩ = .ok [⟨[2, 3, 0, 1]⟩, ⟨[2, 0, 3, 1]⟩] := by
  simp only [debugGenPerm, show divCeil 2 1 - 1 = 1 from rfl, debugLoop, bytePerm_ok]
  decide +kernel

/-- The single checks: rows, sums and products of the digits 1, 0. -/
example : checkMasks 1 [1, 0] [[0, 1], [1, 0]] = .ok () ∧ checkMasks 1 [1, 0] [[0, 1], [0, 1]] = .error .throw ∧
    checkAggregate 2 [[0, 1], [1, 0]] [[-1, 1], [0, 1]] = .ok () ∧
    checkAggregate 2 [[0, 1], [1, 0]] [[-1, 1], [0, 2]] = .error .throw ∧
    checkInner [0b0110] 2 0 [[-1, 1], [0, 1]] [1, 0] = .ok () ∧
    checkInner [0b0110] 2 0 [[-1, 1], [0, 1]] [1, 1] = .error .throw := by decide +kernel

end Radix
end SecJoin
