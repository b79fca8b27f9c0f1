import Verif.Join.OmLemmas
/-!
# The one-to-many join: C31, C32, C33, C61
-/
namespace SecJoin
namespace OmJoin

open Radix (rank rank_lt Ranked PreOk)

/-! ## C31 -/

/-- C31, what the circuit computes for every width: the two keys agree in their lowest `2^⌊log2 bits⌋` bits. -/
theorem C31_compared {bits : Nat} (hb : 0 < bits) (a b : Nat → Bool) :
    ctrlBit bits a b = true ↔ ∀ t, t < 2 ^ Nat.log 2 bits → a t = b t := ctrlBit_ok hb a b

/-- C31 for widths that are powers of two: the output is one exactly when all bits agree. Missing: all other widths, for
which it is false, see `C31_false`. -/
theorem C31_equal_partial (k : Nat) (a b : Nat → Bool) :
    ctrlBit (2 ^ k) a b = true ↔ ∀ t, t < 2 ^ k → a t = b t := by
  rw [ctrlBit_ok (Nat.two_pow_pos k), Nat.log_pow (by omega)]

/-- C31 is false for every width that is not a power of two: two keys that differ in the highest bit only count as equal. -/
theorem C31_false {bits : Nat} (hb : 0 < bits) (h : ∀ k, bits ≠ 2 ^ k) :
    ∃ a b : Nat → Bool, (∃ t, t < bits ∧ a t ≠ b t) ∧ ctrlBit bits a b = true := by
  refine ⟨fun _ => false, fun t => decide (t = bits - 1), ⟨bits - 1, by omega, by simp⟩, ?_⟩
  rw [ctrlBit_ok hb]
  intro t ht
  have hle : 2 ^ Nat.log 2 bits ≤ bits := Nat.pow_log_le_self 2 (by omega)
  have hne := h (Nat.log 2 bits)
  simp
  omega

/-- The keys 0 and 4 of three bits. -/
example : ctrlBit 3 (Nat.testBit 0) (Nat.testBit 4) = true := by decide
example : ctrlBit 4 (Nat.testBit 0) (Nat.testBit 4) = false := by decide

/-- C31: a row's bit tells whether its key agrees with the key of the row before in the compared bits; the first row's is
zero. -/
theorem C31_rows {off bits n : Nat} (hb : 0 < bits) {rows : List Row} (hl : rows.length = n) (hn : 0 < n) :
    ∃ c, controlBits off bits rows = .ok c ∧ c.length = n ∧ c[0]? = some false ∧
      ∀ i, 0 < i → i < n → ∃ v, c[i]? = some v ∧ (v = true ↔ ∀ t, t < 2 ^ Nat.log 2 bits →
        keyBit off (rows.getD (i - 1) []) t = keyBit off (rows.getD i []) t) := by
  unfold controlBits
  rw [hl, if_neg (by omega)]
  refine ⟨_, rfl, by simp, ?_, ?_⟩
  · rw [List.getElem?_map, List.getElem?_range hn]; rfl
  · intro i h0 hi
    rw [List.getElem?_map, List.getElem?_range hi]
    refine ⟨_, rfl, ?_⟩
    show (if i = 0 then false else ctrlBit bits _ _) = true ↔ _
    rw [if_neg (by omega), ctrlBit_ok hb]

/-- Without rows there is nothing to compare with, and the call is refused. -/
theorem C31_no_rows (off bits : Nat) : controlBits off bits [] = .error .throw := rfl

/-! ## C33 -/

/-- C33: the bytes per row that `init` asks for cover the derandomization (4), the forward application (a whole row) and
the backward application (left columns and flag), for a key of `keySize` bits. -/
theorem C33_budget (s : List (Bool × Column)) {keyBits keySize : Nat} (h : keySize ≤ 8 * divCeil keyBits 8) :
    4 + dataBytes s keyBits + (flagByte s + 1) ≤ permBytes (8 * dataBytes s keyBits) keySize := by
  unfold permBytes dataBytes divCeil at *
  omega

/-- C33: what is generated is rounded up to blocks of 16 bytes, so it covers the uses of both correlations. -/
theorem C33_generated (s : List (Bool × Column)) {keyBits keySize : Nat} (h : keySize ≤ 8 * divCeil keyBits 8) :
    0 + 4 + dataBytes s keyBits + (flagByte s + 1) ≤ 16 * ((permBytes (8 * dataBytes s keyBits) keySize + 15) / 16) := by
  have := C33_budget s h
  omega

/-- C33: the size of the sorted keys is at most that of the key column, encoded or not. -/
theorem C33_keySize {cs : Nat} {enc : Row → Row} {l r : Column} {k : BinMatrix} (h : loadKeys cs enc l r = .ok k) :
    k.bits ≤ 8 * divCeil l.info.bits 8 := by
  obtain ⟨-, -, -, rfl⟩ := loadKeys_ok.mp h
  unfold divCeil
  split <;> simp only <;> omega

example : permBytes (8 * dataBytes [(true, ⟨⟨[], .int, 12⟩, ⟨12, 2, [[1, 2]]⟩⟩)] 9) 9 = 5 + 4 + 4 := by decide

/-! ## C32 -/

/-- The value that two shares of a column have in row `i`. -/
def shown (c0 c1 : Column) (i : Nat) : Row := xorRow (c0.data.rows.getD i []) (c1.data.rows.getD i [])

/-- The result of a one-to-many join, for the relation `same l r` on left and right rows: a candidate for each right row,
active exactly when there is a left row for it, with the columns of the first such left row next to those of the right
row. -/
structure OneToMany (nL nR : Nat) (same : Nat → Nat → Prop) (q0 q1 : Query) (t0 t1 : Table) : Prop where
  rows0 : t0.isActive.length = nR
  rows1 : t1.isActive.length = nR
  cols0 : t0.cols.length = q0.select.length
  cols1 : t1.cols.length = q1.select.length
  /-- The right columns are unchanged. -/
  right : ∀ (k : Nat) c0 c1, q0.select[k]? = some (false, c0) → q1.select[k]? = some (false, c1) →
    t0.cols[k]? = some c0 ∧ t1.cols[k]? = some c1
  /-- A right row with a left row. -/
  hit : ∀ r, r < nR → ∀ l, l < nL → same l r → (∀ l', l' < l → ¬ same l' r) →
    t0.isActive.getD r 0 ^^^ t1.isActive.getD r 0 = 1 ∧
    ∀ (k : Nat) c0 c1, q0.select[k]? = some (true, c0) → q1.select[k]? = some (true, c1) →
      ∃ x0 x1, t0.cols[k]? = some x0 ∧ t1.cols[k]? = some x1 ∧ x0.info = c0.info ∧ x1.info = c1.info ∧
        shown x0 x1 r = shown c0 c1 l
  /-- A right row without one. -/
  miss : ∀ r, r < nR → (∀ l, l < nL → ¬ same l r) →
    t0.isActive.getD r 0 ^^^ t1.isActive.getD r 0 = 0 ∧
    ∀ (k : Nat) c0 c1, q0.select[k]? = some (true, c0) → q1.select[k]? = some (true, c1) →
      ∃ x0 x1, t0.cols[k]? = some x0 ∧ t1.cols[k]? = some x1 ∧ x0.info = c0.info ∧ x1.info = c1.info ∧
        shown x0 x1 r = List.replicate (colBytes c0) 0

theorem keyBit_packed {fb : Nat} {a f k z : Row} (ha : a.length = fb) (hf : f.length = 1) {t : Nat} (ht : t < 8 * k.length) :
    keyBit (fb + 1) (a ++ f ++ k ++ z) t = bitOf k t := by
  unfold keyBit bitOf
  have h1 : t / 8 < k.length := by omega
  congr 1
  simp only [List.getD_eq_getElem?_getD]
  rw [List.append_assoc, List.getElem?_append_right (by simp; omega), List.length_append, ha, hf, Nat.add_sub_cancel_left,
    List.getElem?_append_left h1]

section
variable {nL nR : Nat}

/-- The join after the sort, for any keys for which the sort and the comparison of neighbours agree. -/
theorem joinSorted_sem {n W0 o0 W1 o1 : Nat} {q0 q1 : Query} {k0 k1 : BinMatrix} (hq : SameQuery nL nR q0 q1) (hn : n = nL + nR)
    (h2 : 2 ≤ n) (hb : 0 < k0.bits) (hbc : k0.bits ≤ 8 * k0.cols)
    (hk0 : Shape n k0.cols k0.rows) (hk1 : Shape n k0.cols k1.rows) (hc : k1.cols = k0.cols)
    (hkc : k0.cols ≤ divCeil q0.leftKey.info.bits 8) {sk : Nat → Nat} {s0 s1 : List (BitVec 32)} (hs : Ranked n sk s0 s1)
    {p0 p1 : ComposedPerm} (hp : CompInv n W0 o0 W1 o1 p0 p1)
    (hw0 : o0 + dataBytes q0.select q0.leftKey.info.bits + (flagByte q0.select + 1) ≤ W0)
    (hw1 : o1 + 4 + dataBytes q0.select q0.leftKey.info.bits + (flagByte q0.select + 1) ≤ W1) (rn : Rnd)
    (hcmp : ∀ a, a < n → ∀ b, b < n → ((∀ t, t < 2 ^ Nat.log 2 k0.bits →
      bitOf (xorRow (k0.rows.getD a []) (k1.rows.getD a [])) t = bitOf (xorRow (k0.rows.getD b []) (k1.rows.getD b [])) t) ↔
      sk a = sk b)) :
    ∃ t0 t1, joinSorted q0 q1 k0 k1 s0 s1 p0 p1 rn = .ok (t0, t1) ∧
      OneToMany nL nR (fun l r => sk l = sk (nL + r)) q0 q1 t0 t1 := by
  obtain ⟨e1, e2, e3⟩ := sel_sum (sel_left hq.sel)
  have hf1 : flagByte q1.select = flagByte q0.select := e1
  obtain ⟨rows, v0, v1, hrl, hrow, sv0, sv1, hv, hj⟩ := joinSorted_ok hq hn h2 hk0 hk1 hc hkc hs hp hw0 hw1 rn
  obtain ⟨t0, g0, a0, c0, f0, d0⟩ := getOutput_ok (q := q0) (nR := nR) hq.l0.1 (by rw [← hn]; exact sv0)
  obtain ⟨t1, g1, a1, c1, f1, d1⟩ := getOutput_ok (q := q1) (nR := nR) hq.l1.1 (by rw [← hn, hf1]; exact sv1)
  rw [hf1] at f1
  have hD : ∀ i, i < n → rows.getD (rank n sk i) [] = leftPart q0 q1 i ++ [if i < nL then 1 else 0] ++
      xorRow (k0.rows.getD i []) (k1.rows.getD i []) ++ List.replicate (divCeil q0.leftKey.info.bits 8 - k0.cols) 0 := by
    intro i hi
    rw [hrow i hi, packed_xor hq hk0 hk1 hc hi]
  have hle : 2 ^ Nat.log 2 k0.bits ≤ k0.bits := Nat.pow_log_le_self 2 (by omega)
  have hkb : ∀ i, i < n → ∀ t, t < 2 ^ Nat.log 2 k0.bits → keyBit (flagByte q0.select + 1) (rows.getD (rank n sk i) []) t =
      bitOf (xorRow (k0.rows.getD i []) (k1.rows.getD i [])) t := by
    intro i hi t ht
    rw [hD i hi]
    apply keyBit_packed (leftPart_length hq i) rfl
    rw [xorRow_length (by rw [shape_getD hk0 hi, shape_getD hk1 hi]), shape_getD hk0 hi]
    omega
  have hdup := dup_first (n := n) (sk := sk) (x := fun j => rows.getD j []) (c := ctrlAt n (flagByte q0.select + 1) k0.bits rows)
    (D := fun i => rows.getD (rank n sk i) []) (by simp [ctrlAt]) (fun i _ => rfl) (by
      intro a ha b hb' hr
      have hlt := rank_lt sk hb'
      unfold ctrlAt
      rw [if_pos ⟨hlt, by omega⟩, ctrlBit_ok hb, show rank n sk b - 1 = rank n sk a by omega, ← hcmp a ha b hb']
      apply forall_congr'
      intro t
      apply imp_congr_right
      intro ht
      rw [hkb a ha t ht, hkb b hb' t ht])
  -- the revealed row of a right row
  have hout : ∀ r, r < nR → ∃ m, FirstOf n sk (nL + r) m ∧ xorRow (v0.getD (nL + r) []) (v1.getD (nL + r) []) =
      leftPart q0 q1 m ++ [if m < nL then 1 else 0] := by
    intro r hr
    obtain ⟨m, hm, hagg, hcm⟩ := hdup (rank n sk (nL + r)) (nL + r) (by omega) rfl
    refine ⟨m, hm, ?_⟩
    rw [hv (nL + r) (by omega), hagg, hD m hm.1]
    have hll := leftPart_length hq m
    have hle' : m ≤ nL + r := hm.2.2 _ (by omega) rfl
    congr 1
    · rw [List.append_assoc, List.append_assoc, List.take_append_of_le_length (by omega), List.take_of_length_le (by omega)]
    · rw [List.append_assoc, List.append_assoc, List.getD_eq_getElem?_getD, List.getElem?_append_right (by omega), hll, Nat.sub_self]
      simp only [List.cons_append, List.getElem?_cons_zero, Option.getD_some]
      by_cases h : m < nL
      · have : ctrlAt n (flagByte q0.select + 1) k0.bits rows (rank n sk (nL + r)) = true := hcm.mpr (by omega)
        rw [this, if_pos h]; simp
      · rw [if_neg h]
        simp [h]
  have hlen0 : ∀ r, r < nR → (v0.getD (nL + r) []).length = flagByte q0.select + 1 := fun r hr => shape_getD sv0 (by omega)
  have hlen1 : ∀ r, r < nR → (v1.getD (nL + r) []).length = flagByte q0.select + 1 := fun r hr => shape_getD sv1 (by omega)
  have hflag : ∀ r, r < nR → t0.isActive.getD r 0 ^^^ t1.isActive.getD r 0 =
      (xorRow (v0.getD (nL + r) []) (v1.getD (nL + r) [])).getD (flagByte q0.select) 0 := by
    intro r hr
    rw [f0 r hr, f1 r hr]
    have h0 := hlen0 r hr
    have h1 := hlen1 r hr
    unfold xorRow
    generalize v0.getD (nL + r) [] = x at *
    generalize v1.getD (nL + r) [] = y at *
    simp [List.getD_eq_getElem?_getD, List.getElem?_zipWith, h0, h1]
  have hsl : ∀ (k : Nat) a b, q0.select[k]? = some (true, a) → q1.select[k]? = some (true, b) →
      colBytes b = colBytes a ∧ startOf q1.select k = startOf q0.select k := by
    intro k a b ha hb'
    constructor
    · obtain ⟨hka, ha'⟩ := List.getElem?_eq_some_iff.mp ha
      obtain ⟨hkb', hb''⟩ := List.getElem?_eq_some_iff.mp hb'
      have := (List.forall₂_iff_get.mp hq.sel).2 k hka hkb'
      simp only [List.get_eq_getElem, ha', hb''] at this
      unfold colBytes
      rw [this.2.1]
    · have := (sel_sum (sel_left (nL := nL) (nR := nR) (List.forall₂_take k hq.sel))).1
      exact this
  have hcol : ∀ r, r < nR → ∀ m, m < n → xorRow (v0.getD (nL + r) []) (v1.getD (nL + r) []) =
      leftPart q0 q1 m ++ [if m < nL then 1 else 0] → ∀ (k : Nat) a b, q0.select[k]? = some (true, a) → q1.select[k]? = some (true, b) →
      ∃ x0 x1, t0.cols[k]? = some x0 ∧ t1.cols[k]? = some x1 ∧ x0.info = a.info ∧ x1.info = b.info ∧
        shown x0 x1 r = ((leftPart q0 q1 m).drop (startOf q0.select k)).take (colBytes a) := by
    intro r hr m hm he k a b ha hb'
    obtain ⟨x0, y0, i0, -, -, z0⟩ := (d0 k).1 a ha
    obtain ⟨x1, y1, i1, -, -, z1⟩ := (d1 k).1 b hb'
    obtain ⟨hcb, hst⟩ := hsl k a b ha hb'
    refine ⟨x0, x1, y0, y1, i0, i1, ?_⟩
    have hso := startOf_le ha
    unfold shown
    rw [z0 r hr, z1 r hr, hcb, hst, xorRow_take]
    have : xorRow ((v0.getD (nL + r) []).drop (startOf q0.select k)) ((v1.getD (nL + r) []).drop (startOf q0.select k)) =
        (xorRow (v0.getD (nL + r) []) (v1.getD (nL + r) [])).drop (startOf q0.select k) := by
      unfold xorRow; rw [List.drop_zipWith]
    have hll := leftPart_length hq m
    rw [this, he, List.drop_append_of_le_length (by omega), List.take_append_of_le_length (by rw [List.length_drop]; omega)]
  refine ⟨t0, t1, by rw [hj, g0, ok_bind, g1, ok_bind], a0, a1, c0, c1, fun k a b ha hb' => ⟨(d0 k).2 a ha, (d1 k).2 b hb'⟩, ?_, ?_⟩
  · intro r hr l hl hsame hfirst
    obtain ⟨m, hm, he⟩ := hout r hr
    have hml : m = l := by
      have h1 := hm.2.2 l (by omega) hsame
      by_contra hne
      exact hfirst m (by omega) hm.2.1
    subst hml
    have hll := leftPart_length hq m
    refine ⟨?_, ?_⟩
    · rw [hflag r hr, he, List.getD_eq_getElem?_getD, List.getElem?_append_right (by omega), hll, Nat.sub_self, if_pos hl]
      rfl
    · intro k a b ha hb'
      obtain ⟨x0, x1, y0, y1, i0, i1, hx⟩ := hcol r hr m hm.1 he k a b ha hb'
      refine ⟨x0, x1, y0, y1, i0, i1, ?_⟩
      obtain ⟨hcb, hst⟩ := hsl k a b ha hb'
      rw [hx]
      unfold leftPart shown
      rw [hq.l0.1, if_pos hl]
      have : (xorRow (packRow (leftCols q0.select) m) (packRow (leftCols q1.select) m)).drop (startOf q0.select k) =
          xorRow ((packRow (leftCols q0.select) m).drop (startOf q0.select k)) ((packRow (leftCols q1.select) m).drop (startOf q0.select k)) := by
        unfold xorRow; rw [List.drop_zipWith]
      rw [this, ← xorRow_take, packRow_slice e2 ha hl, ← hst, ← hcb, packRow_slice e3 hb' hl]
  · intro r hr hno
    obtain ⟨m, hm, he⟩ := hout r hr
    have hml : ¬ m < nL := fun h => hno m h hm.2.1
    have hll := leftPart_length hq m
    refine ⟨?_, ?_⟩
    · rw [hflag r hr, he, List.getD_eq_getElem?_getD, List.getElem?_append_right (by omega), hll, Nat.sub_self, if_neg hml]
      rfl
    · intro k a b ha hb'
      obtain ⟨x0, x1, y0, y1, i0, i1, hx⟩ := hcol r hr m hm.1 he k a b ha hb'
      refine ⟨x0, x1, y0, y1, i0, i1, ?_⟩
      have hso := startOf_le ha
      rw [hx]
      unfold leftPart
      rw [hq.l0.1, if_neg hml, List.drop_replicate, List.take_replicate]
      congr 1
      omega

/-- C32, for all keys for which the compared bits determine the whole key: the join gives the one-to-many join by the loaded
keys. -/
theorem C32_join {n L cs W0 o0 W1 o1 : Nat} {enc : Row → Row} {q0 q1 : Query} {k0 k1 : BinMatrix} (hq : SameQuery nL nR q0 q1)
    (hn : n = nL + nR) (h2 : 2 ≤ n) (hn32 : n ≤ 2 ^ 32) (h1 : 1 ≤ L) (h8 : L ≤ 8)
    (hl0 : loadKeys cs enc q0.leftKey q0.rightKey = .ok k0) (hl1 : loadKeys cs enc q1.leftKey q1.rightKey = .ok k1)
    (hb : 0 < k0.bits) (hk0 : Shape n k0.cols k0.rows) (hk1 : Shape n k0.cols k1.rows)
    (hkey : ∀ a, a < n → ∀ b, b < n → (∀ t, t < 2 ^ Nat.log 2 k0.bits →
      bitOf (xorRow (k0.rows.getD a []) (k1.rows.getD a [])) t = bitOf (xorRow (k0.rows.getD b []) (k1.rows.getD b [])) t) →
      xorRow (k0.rows.getD a []) (k1.rows.getD a []) = xorRow (k0.rows.getD b []) (k1.rows.getD b []))
    {r : Rnd} (hf : r.first.Ok n L) (hlen : divCeil k0.bits L ≤ r.rest.length + 1) (hr : ∀ s ∈ r.rest, PreOk n L s)
    {p0 p1 : ComposedPerm} (hp : ValidComposed n W0 o0 W1 o1 p0 p1)
    (hw0 : o0 + dataBytes q0.select q0.leftKey.info.bits + (flagByte q0.select + 1) ≤ W0)
    (hw1 : o1 + 4 + dataBytes q0.select q0.leftKey.info.bits + (flagByte q0.select + 1) ≤ W1) :
    ∃ t0 t1, join L cs enc q0 q1 p0 p1 r = .ok (t0, t1) ∧
      OneToMany nL nR (fun a b => xorRow (k0.rows.getD a []) (k1.rows.getD a []) =
        xorRow (k0.rows.getD (nL + b) []) (k1.rows.getD (nL + b) [])) q0 q1 t0 t1 := by
  obtain ⟨hb1, hc1, hkb⟩ : k1.bits = k0.bits ∧ k1.cols = k0.cols ∧
      (k0.bits ≤ 8 * k0.cols ∧ k0.cols ≤ divCeil q0.leftKey.info.bits 8) := by
    obtain ⟨-, -, -, hl0⟩ := loadKeys_ok.mp hl0
    obtain ⟨-, -, -, hl1⟩ := loadKeys_ok.mp hl1
    rw [hq.lb] at hl1
    by_cases hcs : q0.leftKey.info.bits ≤ cs
    · rw [if_pos hcs] at hl0 hl1
      subst hl0 hl1
      refine ⟨rfl, rfl, ?_, ?_⟩ <;> simp only [divCeil] <;> omega
    · rw [if_neg hcs] at hl0 hl1
      subst hl0 hl1
      refine ⟨rfl, rfl, ?_, ?_⟩ <;> simp only [divCeil] <;> omega
  obtain ⟨s0, s1, es, hs⟩ := Radix.genPerm_ok (n := n) (bits := k0.bits) (L := L) (by omega) hn32 hb h1 h8 rfl hb1 hkb.1 hc1 hk0 hk1 hf hlen
    (fun s hs => by
      obtain ⟨W0, o0, W1, o1, hv, r0, r1, ho⟩ := hr s hs
      exact ⟨W0, o0, W1, o1, validComposed_iff.mp hv, ho, r0, r1⟩)
  have hbits : k0.bits ≤ L * divCeil k0.bits L := by
    have := Nat.div_add_mod (k0.bits + L - 1) L
    have hm := Nat.mod_lt (k0.bits + L - 1) (show 0 < L by omega)
    unfold divCeil
    omega
  have hle : 2 ^ Nat.log 2 k0.bits ≤ k0.bits := Nat.pow_log_le_self 2 (by omega)
  have hrk : ∀ a, a < n → rowKey (xm k0.rows k1.rows) a = Table.bytesNat (xorRow (k0.rows.getD a []) (k1.rows.getD a [])) := by
    intro a ha
    rw [rowKey, xm, xm_getD hk0 hk1 ha]
  have hsk : ∀ a, a < n → ∀ b, b < n → (rowKey (xm k0.rows k1.rows) a % 2 ^ (L * divCeil k0.bits L) =
      rowKey (xm k0.rows k1.rows) b % 2 ^ (L * divCeil k0.bits L) ↔
      xorRow (k0.rows.getD a []) (k1.rows.getD a []) = xorRow (k0.rows.getD b []) (k1.rows.getD b [])) := by
    intro a ha b hb'
    rw [hrk a ha, hrk b hb']
    constructor
    · intro h
      apply hkey a ha b hb'
      intro t ht
      have := congrArg (fun v => v.testBit t) h
      simp only [Nat.testBit_mod_two_pow, decide_eq_true (show t < L * divCeil k0.bits L by omega), Bool.true_and,
        bytesNat_testBit] at this
      exact this
    · intro h; rw [h]
  obtain ⟨t0, t1, e, ho⟩ := joinSorted_sem hq hn h2 hb hkb.1 hk0 hk1 hc1 hkb.2 hs (validComposed_iff.mp hp) hw0 hw1 r (by
    intro a ha b hb'
    rw [hsk a ha b hb']
    exact ⟨hkey a ha b hb', fun h t _ => by rw [h]⟩)
  refine ⟨t0, t1, ?_, ?_⟩
  · unfold join
    rw [hl0, ok_bind, hl1, ok_bind, hk0.1, es, ok_bind]
    exact e
  · exact { ho with
      hit := fun r hr l hl h hf => ho.hit r hr l hl ((hsk l (by omega) (nL + r) (by omega)).mpr h)
        (fun l' hl' h' => hf l' hl' ((hsk l' (by omega) (nL + r) (by omega)).mp h'))
      miss := fun r hr h => ho.miss r hr (fun l hl h' => h l hl ((hsk l (by omega) (nL + r) (by omega)).mp h')) }

theorem append_getD_left {a b : List Row} {i : Nat} (h : i < a.length) : (a ++ b).getD i [] = a.getD i [] := by
  simp [List.getD_eq_getElem?_getD, List.getElem?_append_left h]

theorem append_getD_right {a b : List Row} (i : Nat) : (a ++ b).getD (a.length + i) [] = b.getD i [] := by
  rw [List.getD_eq_getElem?_getD, List.getElem?_append_right (by omega), Nat.add_sub_cancel_left, List.getD_eq_getElem?_getD]

theorem shape_append {n m c : Nat} {a b : List Row} (ha : Shape n c a) (hb : Shape m c b) : Shape (n + m) c (a ++ b) := by
  refine ⟨by simp [ha.1, hb.1], fun r hr => ?_⟩
  rcases List.mem_append.mp hr with h | h
  · exact ha.2 r h
  · exact hb.2 r h

/-- C32 for keys of `2^k` bits that are sorted as they are, with the correlation bytes of `init`: every right row gets its
matching left row. With equal left keys it is the first of them. The rows' active flags are not looked at. Missing: widths
that are not a power of two, see `C32_false`; keys longer than the bound, which are replaced by a random code of them (`C32_join`
covers them when no two of the codes agree in the compared bits). -/
theorem C32_join_partial {L cs k W : Nat} {enc : Row → Row} {q0 q1 : Query} (hq : SameQuery nL nR q0 q1)
    (hnL : 0 < nL) (hnR : 0 < nR) (hn32 : nL + nR ≤ 2 ^ 32) (h1 : 1 ≤ L) (h8 : L ≤ 8)
    (hk : q0.leftKey.info.bits = 2 ^ k) (hcs : 2 ^ k ≤ cs)
    (hpadL : ∀ i, i < nL → ∀ j, 2 ^ k ≤ j → bitOf (shown q0.leftKey q1.leftKey i) j = false)
    (hpadR : ∀ i, i < nR → ∀ j, 2 ^ k ≤ j → bitOf (shown q0.rightKey q1.rightKey i) j = false)
    {r : Rnd} (hf : r.first.Ok (nL + nR) L) (hlen : divCeil (2 ^ k) L ≤ r.rest.length + 1)
    (hr : ∀ s ∈ r.rest, PreOk (nL + nR) L s) {p0 p1 : ComposedPerm}
    (hW : W = 16 * ((permBytes (8 * dataBytes q0.select (2 ^ k)) (2 ^ k) + 15) / 16))
    (hp : ValidComposed (nL + nR) W 0 W 0 p0 p1) :
    ∃ t0 t1, join L cs enc q0 q1 p0 p1 r = .ok (t0, t1) ∧
      OneToMany nL nR (fun a b => shown q0.leftKey q1.leftKey a = shown q0.rightKey q1.rightKey b) q0 q1 t0 t1 := by
  have hl0 : loadKeys cs enc q0.leftKey q0.rightKey = .ok ⟨2 ^ k, divCeil (2 ^ k) 8, q0.leftKey.data.rows ++ q0.rightKey.data.rows⟩ := by
    exact loadKeys_ok.mpr ⟨hq.rb0.symm, by rw [hq.l0.1]; exact hnL, by rw [hq.r0.1]; exact hnR, by rw [if_pos (by omega), hk]⟩
  have hl1 : loadKeys cs enc q1.leftKey q1.rightKey = .ok ⟨2 ^ k, divCeil (2 ^ k) 8, q1.leftKey.data.rows ++ q1.rightKey.data.rows⟩ := by
    exact loadKeys_ok.mpr ⟨by rw [hq.lb, hq.rb1], by rw [hq.l1.1]; exact hnL, by rw [hq.r1.1]; exact hnR,
      by rw [if_pos (by rw [hq.lb]; omega), hq.lb, hk]⟩
  have hcb : colBytes q0.leftKey = divCeil (2 ^ k) 8 := by unfold colBytes; rw [hk]
  have hs0 := shape_append hq.l0 hq.r0
  have hs1 := shape_append hq.l1 hq.r1
  rw [hcb] at hs0 hs1
  have hL : ∀ a, a < nL → xorRow ((q0.leftKey.data.rows ++ q0.rightKey.data.rows).getD a [])
      ((q1.leftKey.data.rows ++ q1.rightKey.data.rows).getD a []) = shown q0.leftKey q1.leftKey a := by
    intro a ha
    rw [append_getD_left (by rw [hq.l0.1]; exact ha), append_getD_left (by rw [hq.l1.1]; exact ha)]
    rfl
  have hR : ∀ b, xorRow ((q0.leftKey.data.rows ++ q0.rightKey.data.rows).getD (nL + b) [])
      ((q1.leftKey.data.rows ++ q1.rightKey.data.rows).getD (nL + b) []) = shown q0.rightKey q1.rightKey b := by
    intro b
    have e0 := append_getD_right (a := q0.leftKey.data.rows) (b := q0.rightKey.data.rows) b
    have e1 := append_getD_right (a := q1.leftKey.data.rows) (b := q1.rightKey.data.rows) b
    rw [hq.l0.1] at e0
    rw [hq.l1.1] at e1
    rw [e0, e1]
    rfl
  have hpad : ∀ a, a < nL + nR → ∀ j, 2 ^ k ≤ j → bitOf (xorRow ((q0.leftKey.data.rows ++ q0.rightKey.data.rows).getD a [])
      ((q1.leftKey.data.rows ++ q1.rightKey.data.rows).getD a [])) j = false := by
    intro a ha j hj
    by_cases h : a < nL
    · rw [hL a h]; exact hpadL a h j hj
    · obtain ⟨b, rfl⟩ : ∃ b, a = nL + b := ⟨a - nL, by omega⟩
      rw [hR b]; exact hpadR b (by omega) j hj
  have hbud := C33_generated q0.select (keyBits := 2 ^ k) (keySize := 2 ^ k) (by unfold divCeil; omega)
  rw [← hW] at hbud
  obtain ⟨t0, t1, e, ho⟩ := C32_join (cs := cs) (enc := enc) hq rfl (by omega) hn32 h1 h8 hl0 hl1 (Nat.two_pow_pos k) hs0 hs1 (by
      intro a ha b hb' h
      rw [Nat.log_pow (by omega)] at h
      apply row_ext
      · rw [xorRow_length (by rw [shape_getD hs0 ha, shape_getD hs1 ha]), xorRow_length (by rw [shape_getD hs0 hb', shape_getD hs1 hb']),
          shape_getD hs0 ha, shape_getD hs0 hb']
      · intro j _
        by_cases hj : j < 2 ^ k
        · exact h j hj
        · rw [hpad a ha j (by omega), hpad b hb' j (by omega)]) hf hlen hr hp (by rw [hk]; omega) (by rw [hk]; omega)
  refine ⟨t0, t1, e, ?_⟩
  exact { ho with
      hit := fun r hr l hl h hf => ho.hit r hr l hl (by rw [hL l hl, hR r]; exact h)
        (fun l' hl' h' => hf l' hl' (by rw [hL l' (by omega), hR r] at h'; exact h'))
      miss := fun r hr h => ho.miss r hr (fun l hl h' => h l hl (by rw [hL l hl, hR r] at h'; exact h')) }

/-- C32: with distinct left keys, any left row with the key of the right row is the one. -/
theorem OneToMany.distinct {q0 q1 : Query} {t0 t1 : Table} {kl kr : Nat → Row}
    (h : OneToMany nL nR (fun a b => kl a = kr b) q0 q1 t0 t1)
    (hd : ∀ a, a < nL → ∀ b, b < nL → kl a = kl b → a = b) {l r : Nat} (hl : l < nL) (hr : r < nR) (he : kl l = kr r) :
    t0.isActive.getD r 0 ^^^ t1.isActive.getD r 0 = 1 ∧
    ∀ (k : Nat) c0 c1, q0.select[k]? = some (true, c0) → q1.select[k]? = some (true, c1) →
      ∃ x0 x1, t0.cols[k]? = some x0 ∧ t1.cols[k]? = some x1 ∧ x0.info = c0.info ∧ x1.info = c1.info ∧
        shown x0 x1 r = shown c0 c1 l :=
  h.hit r hr l hl he (fun l' hl' h' => by have := hd l' (by omega) l hl (by rw [h', he]); omega)

/-- The hypotheses of C32: two left rows, one right row, keys of four bits, a left and a right column selected; the sort in
digits of two bits. -/
def exQ0 : Query := ⟨⟨⟨[], .int, 4⟩, ⟨4, 1, [[5], [9]]⟩⟩, ⟨⟨[], .int, 4⟩, ⟨4, 1, [[7]]⟩⟩,
  [(true, ⟨⟨[], .int, 8⟩, ⟨8, 1, [[20], [21]]⟩⟩), (false, ⟨⟨[], .int, 8⟩, ⟨8, 1, [[22]]⟩⟩)]⟩
def exQ1 : Query := ⟨⟨⟨[], .int, 4⟩, ⟨4, 1, [[3], [8]]⟩⟩, ⟨⟨[], .int, 4⟩, ⟨4, 1, [[1]]⟩⟩,
  [(true, ⟨⟨[], .int, 8⟩, ⟨8, 1, [[120], [121]]⟩⟩), (false, ⟨⟨[], .int, 8⟩, ⟨8, 1, [[122]]⟩⟩)]⟩

theorem exQ_same : SameQuery 2 1 exQ0 exQ1 := by
  refine ⟨?_, ?_, ?_, ?_, rfl, rfl, rfl, ?_⟩
  · unfold Shape; decide
  · unfold Shape; decide
  · unfold Shape; decide
  · unfold Shape; decide
  · refine List.Forall₂.cons ⟨rfl, rfl, ?_, ?_⟩ (List.Forall₂.cons ⟨rfl, rfl, ?_, ?_⟩ List.Forall₂.nil) <;> unfold Shape <;> decide

example : ∃ (r : Rnd) (p0 p1 : ComposedPerm), SameQuery 2 1 exQ0 exQ1 ∧ exQ0.leftKey.info.bits = 2 ^ 2 ∧
    (∀ i, i < 2 → shown exQ0.leftKey exQ1.leftKey i = [[6], [1]].getD i []) ∧ shown exQ0.rightKey exQ1.rightKey 0 = [6] ∧
    r.first.Ok 3 2 ∧ divCeil (2 ^ 2) 2 ≤ r.rest.length + 1 ∧ (∀ s ∈ r.rest, PreOk 3 2 s) ∧
    ValidComposed 3 (16 * ((permBytes (8 * dataBytes exQ0.select (2 ^ 2)) (2 ^ 2) + 15) / 16)) 0 16 0 p0 p1 := by
  obtain ⟨c0, c1, h, -⟩ := exComposed
  refine ⟨⟨Radix.exRnd3, [(c0, c1, Radix.exRnd3)], fun _ => [], fun _ => false⟩, c0, c1, exQ_same, rfl, by decide, by decide,
    Radix.exRnd3_ok, by simp [divCeil], ?_, h⟩
  intro s hs
  rw [List.mem_singleton] at hs
  subst hs
  exact ⟨16, 0, 16, 0, h, by decide, by decide, Radix.exRnd3_ok⟩

/-- One left row with key 0, one right row with key 4, both of three bits. -/
def badQ0 : Query := ⟨⟨⟨[], .int, 3⟩, ⟨3, 1, [[0]]⟩⟩, ⟨⟨[], .int, 3⟩, ⟨3, 1, [[4]]⟩⟩, [(true, ⟨⟨[], .int, 8⟩, ⟨8, 1, [[20]]⟩⟩)]⟩
def badQ1 : Query := ⟨⟨⟨[], .int, 3⟩, ⟨3, 1, [[0]]⟩⟩, ⟨⟨[], .int, 3⟩, ⟨3, 1, [[0]]⟩⟩, [(true, ⟨⟨[], .int, 8⟩, ⟨8, 1, [[0]]⟩⟩)]⟩

theorem badQ_same : SameQuery 1 1 badQ0 badQ1 := by
  refine ⟨?_, ?_, ?_, ?_, rfl, rfl, rfl, ?_⟩
  · unfold Shape; decide
  · unfold Shape; decide
  · unfold Shape; decide
  · unfold Shape; decide
  · refine List.Forall₂.cons ⟨rfl, rfl, ?_, ?_⟩ List.Forall₂.nil <;> unfold Shape <;> decide

/-- C32 is false for other widths: with keys of three bits, the left row with key 0 is joined to the right row with key 4 in
every run. -/
theorem C32_false : shown badQ0.leftKey badQ1.leftKey 0 ≠ shown badQ0.rightKey badQ1.rightKey 0 ∧
    ∀ {cs W : Nat} {enc : Row → Row} {r : Rnd} {p0 p1 : ComposedPerm}, 3 ≤ cs → r.first.Ok 2 3 → ValidComposed 2 W 0 W 0 p0 p1 →
      4 + 3 + 2 ≤ W → ∃ t0 t1 x0 x1, join 3 cs enc badQ0 badQ1 p0 p1 { r with rest := [] } = .ok (t0, t1) ∧
        t0.isActive.getD 0 0 ^^^ t1.isActive.getD 0 0 = 1 ∧ t0.cols[0]? = some x0 ∧ t1.cols[0]? = some x1 ∧
        shown x0 x1 0 = [20] := by
  refine ⟨by decide, ?_⟩
  intro cs W enc r p0 p1 hcs hf hp hW
  have hl0 : loadKeys cs enc badQ0.leftKey badQ0.rightKey = .ok ⟨3, 1, [[0], [4]]⟩ := by
    refine loadKeys_ok.mpr ⟨rfl, by decide, by decide, ?_⟩
    rw [if_pos (show badQ0.leftKey.info.bits ≤ cs from hcs)]
    rfl
  have hl1 : loadKeys cs enc badQ1.leftKey badQ1.rightKey = .ok ⟨3, 1, [[0], [0]]⟩ := by
    refine loadKeys_ok.mpr ⟨rfl, by decide, by decide, ?_⟩
    rw [if_pos (show badQ1.leftKey.info.bits ≤ cs from hcs)]
    rfl
  have sh0 : Shape 2 1 [[(0 : Byte)], [4]] := by unfold Shape; decide
  have sh1 : Shape 2 1 [[(0 : Byte)], [0]] := by unfold Shape; decide
  obtain ⟨s0, s1, es, hs⟩ := Radix.genPerm_ok (n := 2) (bits := 3) (L := 3) (k0 := ⟨3, 1, [[0], [4]]⟩) (k1 := ⟨3, 1, [[0], [0]]⟩)
    (by omega) (by omega) (by omega) (by omega) (by omega) rfl rfl (by decide) rfl sh0 sh1 hf (rest := []) (by simp [divCeil]) (by simp)
  -- the order is that of equal keys
  have hs' : Ranked 2 (fun _ => 0) s0 s1 := by
    refine ⟨hs.1, hs.2.1, fun i hi => ?_⟩
    rw [hs.2.2 i hi]
    have : i = 0 ∨ i = 1 := by omega
    rcases this with rfl | rfl <;> decide +kernel
  obtain ⟨t0, t1, e, ho⟩ := joinSorted_sem (n := 2) (W0 := W) (W1 := W) (k0 := ⟨3, 1, [[0], [4]]⟩) (k1 := ⟨3, 1, [[0], [0]]⟩) badQ_same rfl
    (by omega) (by decide) (by decide) sh0 sh1 rfl (by decide) hs' (validComposed_iff.mp hp)
    (by simp [badQ0, dataBytes, flagByte, leftCols, colBytes, divCeil]; omega)
    (by simp [badQ0, dataBytes, flagByte, leftCols, colBytes, divCeil]; omega) { r with rest := [] } (by
      intro a ha b hb
      have hl : Nat.log 2 3 = 1 := by decide
      simp only [hl]
      refine ⟨fun _ => trivial, fun _ => ?_⟩
      have ha' : a = 0 ∨ a = 1 := by omega
      have hb' : b = 0 ∨ b = 1 := by omega
      rcases ha' with rfl | rfl <;> rcases hb' with rfl | rfl <;> decide)
  obtain ⟨h1, h2⟩ := ho.hit 0 (by omega) 0 (by omega) rfl (by omega)
  obtain ⟨x0, x1, y0, y1, -, -, hx⟩ := h2 0 _ _ rfl rfl
  refine ⟨t0, t1, x0, x1, ?_, h1, y0, y1, hx⟩
  unfold join
  rw [hl0, ok_bind, hl1, ok_bind]
  simp only [List.length_cons, List.length_nil]
  rw [es, ok_bind]
  exact e

/-! ## C61 -/

/-- C61: the message of the receiver is a one-time pad: for every data share and every message there is exactly one value of
the mask bytes in use for which the message is sent. Missing: that the masks are not sent as well, which is false in the
join, see `C61_join_false`. -/
theorem C61_pad_partial {n W off : Nat} {s : PermCorSender} {r : PermCorReceiver} (h : CorInv n W off s r) (hn : 0 < n) (op : PermOp)
    {x : Mat Row} (hx : Shape n x.cols x.rows) (hW : off + x.cols ≤ W) :
    (∃ r' msg out, r.apply op x x.rows.length x.cols = .ok (r', msg, out) ∧ xm (sl off x.cols (maskOf op r)) x.rows = msg.rows) ∧
    ∀ m, Shape n x.cols m → ∃ k, Shape n x.cols k ∧ xm k x.rows = m ∧ ∀ k', Shape n x.cols k' → xm k' x.rows = m → k' = k := by
  refine ⟨⟨_, _, _, receiver_apply_ok h hn hx hW, rfl⟩, fun m hm => ⟨xm m x.rows, xm_shape hm hx, ?_, ?_⟩⟩
  · rw [xm_comm, xm_comm m, xm_cancel hx hm]
  · intro k' hk' he
    rw [← he, xm_comm (xm k' x.rows), xm_comm k', xm_cancel hx hk']

/-- C61 is false in the join: the check of the correlation sends party 0's masks `b` to party 1, so that from the message of
the derandomization party 1 gets party 0's share of the sorting permutation. -/
theorem C61_join_false {n W0 o0 W1 o1 : Nat} {p0 p1 : ComposedPerm} (hp : ValidComposed n W0 o0 W1 o1 p0 p1) (hn : 0 < n)
    {s0 s1 : List (BitVec 32)} (hs0 : s0.length = n) (hs1 : s1.length = n) (h1 : o1 + 4 ≤ W1) :
    validateCorNet p1.snd p0.rcv = .ok () ∧
    ∃ snd rcv msg d1 d0, SecJoin.applyBoth p1.snd p0.rcv .inverse (u32Mat s0) (some (u32Mat s1)) = .ok (snd, rcv, msg, d1, d0) ∧
      xm (sl o1 4 p0.rcv.b) msg.rows = (u32Mat s0).rows := by
  have hc := (validComposed_iff.mp hp).cor1
  have hx : Shape n 4 (u32Mat s0).rows := by rw [← hs0]; exact u32Mat_shape s0
  refine ⟨validateCorNet_ok hc, ?_⟩
  obtain ⟨so, ro, e, -, -, -⟩ := applyBoth_ok hc hn (op := .inverse) (x := u32Mat s0) (xs := some (u32Mat s1)) hx
    (fun y hy => by simp at hy; subst hy; exact ⟨by rw [← hs1]; exact u32Mat_shape s1, rfl⟩) h1
  refine ⟨_, _, _, _, _, e, ?_⟩
  have hb : Shape n 4 (sl o1 4 p0.rcv.b) := sl_shape hc.b h1
  exact xm_cancel hb hx

end

end OmJoin
end SecJoin
