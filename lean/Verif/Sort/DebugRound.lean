import Verif.Sort.DebugLemmas
/-!
# A round in debug mode
-/
namespace SecJoin
namespace Radix

theorem addRows_ok {n c : Nat} {a b : List (List (BitVec 32))} (ha : a.length = n) (hb : b.length = n)
    (ra : ∀ r ∈ a, r.length = c) (rb : ∀ r ∈ b, r.length = c) :
    (addRows a b).length = n ∧ (∀ r ∈ addRows a b, r.length = c) ∧
    ∀ i j, i < n → j < c → ((addRows a b).getD i []).getD j 0 = (a.getD i []).getD j 0 + (b.getD i []).getD j 0 := by
  refine ⟨by simp [addRows, ha, hb], ?_, ?_⟩
  · intro r hr
    unfold addRows at hr
    obtain ⟨i, hi, rfl⟩ := List.mem_iff_getElem.mp hr
    rw [List.getElem_zipWith]
    exact addRow_length (ra _ (List.getElem_mem _)) (rb _ (List.getElem_mem _))
  · intro i j hi hj
    have h1 : i < a.length := by omega
    have h2 : i < b.length := by omega
    have e : (addRows a b).getD i [] = addRow a[i] b[i] := by
      simp [addRows, List.getD_eq_getElem?_getD, List.getElem?_zipWith, h1, h2]
    have ea : a.getD i [] = a[i] := by simp [List.getD_eq_getElem?_getD, h1]
    have eb : b.getD i [] = b[i] := by simp [List.getD_eq_getElem?_getD, h2]
    rw [e, ea, eb, addRow_getD (ra _ (List.getElem_mem _)) (rb _ (List.getElem_mem _)) hj]

theorem getD_row {n c : Nat} {a : List (List (BitVec 32))} (ha : a.length = n) (ra : ∀ r ∈ a, r.length = c) {i : Nat}
    (hi : i < n) : (a.getD i []).length = c := by
  have h1 : i < a.length := by omega
  have ea : a.getD i [] = a[i] := by simp [List.getD_eq_getElem?_getD, h1]
  rw [ea]
  exact ra _ (List.getElem_mem _)

theorem flat_row {n c : Nat} {s : List (List (BitVec 32))} (hs : s.length = n) (hrow : ∀ r ∈ s, r.length = c) {i j : Nat}
    (hi : i < n) (hj : j < c) : s.flatten.getD (i * c + j) 0 = (s.getD i []).getD j 0 := by
  have his : i < s.length := by omega
  rw [List.getD_eq_getElem?_getD, flatten_get hrow i hj, List.getElem?_eq_getElem his]
  simp [List.getD_eq_getElem?_getD, List.getElem?_eq_getElem his]

theorem bitOf_xorBytes {a b : List Byte} (h : a.length = b.length) (k : Nat) :
    bitOf (xorBytes a b) k = (bitOf a k ^^ bitOf b k) := bitOf_xorRow h k

/-- The inner product of row `i`. -/
def prodAt (f0 f1 : List Byte) (s0 s1 : List (List (BitVec 32))) (L2 i : Nat) : BitVec 32 :=
  ∑ j ∈ Finset.range L2, word (bitOf f0 (i * L2 + j) ^^ bitOf f1 (i * L2 + j)) *
    ((s0.getD i []).getD j 0 + (s1.getD i []).getD j 0)

theorem hadamardSumD_eq {n L2 : Nat} {f0 f1 : List Byte} {s0 s1 : List (List (BitVec 32))} {otA otB : List (List Ot)}
    (mask : Nat → BitVec 32) (hL : 0 < L2) (hn : n ≤ 2 ^ 32) (hf : f0.length = f1.length)
    (h0 : n * L2 ≤ 8 * f0.length) (g0 : s0.length = n) (g1 : s1.length = n) (r0 : ∀ r ∈ s0, r.length = L2)
    (r1 : ∀ r ∈ s1, r.length = L2)
    (hA : ∀ b ∈ otA, b.length % L2 = 0) (hA' : n * L2 ≤ (otA.map List.length).sum)
    (hB : ∀ b ∈ otB, b.length % L2 = 0) (hB' : n * L2 ≤ (otB.map List.length).sum)
    (hfit : ∀ i, i < n → lowBits (sumBits n) (prodAt f0 f1 s0 s1 L2 i) = prodAt f0 f1 s0 s1 L2 i) :
    hadamardSumD n L2 f0 f1 s0 s1 otA otB mask = hadamardSum n L2 f0 f1 s0.flatten s1.flatten otA otB mask := by
  have q0 := flatten_len r0
  have q1 := flatten_len r1
  rw [g0] at q0
  rw [g1] at q1
  obtain ⟨a, ea, la, ha⟩ := hadLoop_ok hL h0 (by rw [← hf]; exact h0) (Nat.le_of_eq q1.symm) otA 0 hA (by simpa using hA')
  obtain ⟨b, eb, lb, hb⟩ := hadLoop_ok hL (by rw [← hf]; exact h0) h0 (Nat.le_of_eq q0.symm) otB 0 hB (by simpa using hB')
  rw [Nat.sub_zero] at la lb
  obtain ⟨d0, d1, ed, ld0, ld1, hd⟩ := hadamardSum_ok (n := n) (L2 := L2) (f0 := f0) (f1 := f1) (otA := otA) (otB := otB)
    mask hL hn h0 (by rw [← hf]; exact h0) (Nat.le_of_eq q0.symm) (Nat.le_of_eq q1.symm) hA hA' hB hB'
  obtain ⟨t1, t2, t3⟩ := addRows_ok g0 g1 r0 r1
  have hprod : ∀ i, i < n → ∑ j ∈ Finset.range L2, word (bitOf f0 (i * L2 + j) ^^ bitOf f1 (i * L2 + j)) *
      (s0.flatten.getD (i * L2 + j) 0 + s1.flatten.getD (i * L2 + j) 0) = prodAt f0 f1 s0 s1 L2 i := by
    intro i hi
    apply Finset.sum_congr rfl
    intro j hj
    rw [Finset.mem_range] at hj
    rw [flat_row g0 r0 hi hj, flat_row g1 r1 hi hj]
  have hprodX : ∀ i, i < n → ∑ j ∈ Finset.range L2, word (bitOf (xorBytes f0 f1) ((0 + i) * L2 + j)) *
      ((addRows s0 s1).getD i []).getD j 0 = prodAt f0 f1 s0 s1 L2 i := by
    intro i hi
    apply Finset.sum_congr rfl
    intro j hj
    rw [Finset.mem_range] at hj
    rw [t3 i j hi hj, bitOf_xorBytes hf, Nat.zero_add]
  have hlenX : (xorBytes f0 f1).length = f0.length := by simp [xorBytes, hf]
  have hbig : (0 + (addRows s0 s1).length) * L2 ≤ 8 * (xorBytes f0 f1).length := by rw [t1, hlenX, Nat.zero_add]; exact h0
  rw [ed]
  rw [hadamardSum, ea, ok_bind, eb, ok_bind] at ed
  simp only at ed
  unfold hadamardSumD
  rw [ea, ok_bind, eb, ok_bind]
  simp only
  rw [checkInner_eq _ _ 0 (by rw [t1]; simp [addRow, la, lb]) t2 hbig, if_pos, ok_bind]
  · have ed' := Prod.mk.inj (Except.ok.inj ed)
    rw [ed'.1, ed'.2]
    rw [checkInner_eq _ _ 0 (by rw [t1]; simp [xorWords, ld0, ld1]) t2 hbig, if_pos, ok_bind]
    intro i hi
    have hi' : i < n := by simpa [xorWords, ld0, ld1] using hi
    have hx : (xorWords d0 d1).getD i 0 = d0.getD i 0 ^^^ d1.getD i 0 := by
      have h1 : i < d0.length := by omega
      have h2 : i < d1.length := by omega
      simp [xorWords, List.getD_eq_getElem?_getD, List.getElem?_zipWith, h1, h2]
    rw [hx, hd i hi', hprod i hi', hfit i hi', hprodX i hi']
  · intro i hi
    have hi' : i < n := by simpa [addRow, la, lb] using hi
    have haL : i < a.length := by omega
    have hbL : i < b.length := by omega
    have ga : a.getD i (0, 0) = a[i] := by rw [List.getD_eq_getElem?_getD, List.getElem?_eq_getElem haL]; rfl
    have gb : b.getD i (0, 0) = b[i] := by rw [List.getD_eq_getElem?_getD, List.getElem?_eq_getElem hbL]; rfl
    have va := ha i (by omega)
    have vb := hb i (by omega)
    rw [ga, Nat.zero_add] at va
    rw [gb, Nat.zero_add] at vb
    rw [hprodX i hi', ← hprod i hi']
    have e : (addRow (List.zipWith (fun (x y : BitVec 32 × BitVec 32) => y.2 + x.1) a b)
        (List.zipWith (fun (x y : BitVec 32 × BitVec 32) => x.2 + y.1) a b)).getD i 0 =
        (b[i].2 + a[i].1) + (a[i].2 + b[i].1) := by
      simp [addRow, List.getD_eq_getElem?_getD, List.getElem?_zipWith, haL, hbL]
    have : b[i].2 + a[i].1 + (a[i].2 + b[i].1) = (a[i].1 + a[i].2) + (b[i].1 + b[i].2) := by ring
    rw [e, this, va, vb, hadVal, hadVal, ← Finset.sum_add_distrib]
    apply Finset.sum_congr rfl
    intro j _
    rw [Bool.xor_comm (bitOf f1 _)]
    ring

theorem sum_onehot (v : Nat) : ∀ (r : List (BitVec 32)) (i : Nat), (∀ j, j < r.length → r.getD j 0 = if v = i + j then 1 else 0) →
    (r.map BitVec.toNat).sum = if i ≤ v ∧ v < i + r.length then 1 else 0 := by
  intro r
  induction r with
  | nil => intro i _; rw [if_neg (by simp)]; rfl
  | cons x r ih =>
    intro i h
    rw [List.length_cons, forall_cons] at h
    obtain ⟨h0, h1⟩ := h
    rw [List.map_cons, List.sum_cons, ih (i + 1) (fun j hj => by
      have := h1 j hj
      rw [List.getD_cons_succ] at this
      rw [this, show i + (j + 1) = i + 1 + j by omega]), List.length_cons]
    rw [List.getD_cons_zero, Nat.add_zero] at h0
    rw [h0]
    by_cases e : v = i
    · rw [if_pos e, if_neg (by omega), if_pos (by omega)]; rfl
    · rw [if_neg e]
      by_cases e2 : i + 1 ≤ v ∧ v < i + 1 + r.length
      · rw [if_pos e2, if_pos (by omega)]; rfl
      · rw [if_neg e2, if_neg (by omega)]; rfl

/-- C77 for a round: with enough randomness the round in debug mode is the round itself if all digits have at most `L`
bits, and is refused otherwise. -/
theorem genBitPermD_eq {n L : Nat} (h1 : 1 ≤ L) (h8 : L ≤ 8) (hn : n ≤ 2 ^ 32) {k0 k1 : List Byte}
    (l0 : k0.length = n) (l1 : k1.length = n) {r : RoundRnd} (hr : r.Ok n L) :
    genBitPermD n L k0 k1 r = if ∀ i, i < n → (k0.getD i 0 ^^^ k1.getD i 0).toNat < 2 ^ L then genBitPerm n L k0 k1 r
      else .error .throw := by
  obtain ⟨b0, b1, eb, lb0, lb1, hb⟩ := oneHotShares_ok h1 h8 r.oh l0 l1
  have hpos := Nat.two_pow_pos L
  have hw : n * 2 ^ L ≤ 8 * divCeil (n * 2 ^ L) 8 := by unfold divCeil; omega
  obtain ⟨f0, f1, ef, lf0, lf1, hf⟩ := bitInjection_ok (n := 1) (w := n * 2 ^ L) (c0 := b0.length) (c1 := b1.length)
    (outBits := 32) (in0 := ⟨b0.length, [b0]⟩) (in1 := ⟨b1.length, [b1]⟩) (bs := r.inj) (.inl rfl)
    ⟨rfl, by simp⟩ ⟨rfl, by simp⟩ rfl rfl (by omega) (by omega) (by simpa using hr.inj)
  rw [Nat.one_mul] at lf0 lf1
  obtain ⟨ra0, rb0, rc0⟩ := rowsOf_ok (cols := 2 ^ L) n f0 lf0
  obtain ⟨ra1, rb1, rc1⟩ := rowsOf_ok (cols := 2 ^ L) n f1 lf1
  obtain ⟨ga0, gb0, gc0⟩ := aggregateSum_ok (L2 := 2 ^ L) (rowsOf (2 ^ L) f0 n) 0 ra0 rb0
  obtain ⟨ga1, gb1, gc1⟩ := aggregateSum_ok (L2 := 2 ^ L) (rowsOf (2 ^ L) f1 n) 1 ra1 rb1
  obtain ⟨tf1, tf2, tf3⟩ := addRows_ok ra0 ra1 rb0 rb1
  obtain ⟨ts1, ts2, ts3⟩ := addRows_ok ga0 ga1 gb0 gb1
  have hlk : (xorBytes k0 k1).length = n := by simp [xorBytes, l0, l1]
  have hxk : ∀ i, i < n → (xorBytes k0 k1).getD i 0 = k0.getD i 0 ^^^ k1.getD i 0 := by
    intro i hi
    have h1 : i < k0.length := by omega
    have h2 : i < k1.length := by omega
    simp [xorBytes, List.getD_eq_getElem?_getD, List.getElem?_zipWith, h1, h2]
  have hidx : ∀ a j, a < n → j < 2 ^ L → a * 2 ^ L + j < n * 2 ^ L := by
    intro a j ha hj
    have : (a + 1) * 2 ^ L ≤ n * 2 ^ L := Nat.mul_le_mul_right _ ha
    rw [Nat.add_mul] at this
    omega
  have hfsum : ∀ a j, a < n → j < 2 ^ L → ((addRows (rowsOf (2 ^ L) f0 n) (rowsOf (2 ^ L) f1 n)).getD a []).getD j 0 =
      word (decide ((k0.getD a 0 ^^^ k1.getD a 0).toNat % 2 ^ L = j)) := by
    intro a j ha hj
    have hk := hidx a j ha hj
    have := hf (a * 2 ^ L + j) (by omega)
    rw [Nat.div_eq_of_lt hk, Nat.mod_eq_of_lt hk] at this
    simp only [BitVec.setWidth_eq, List.getD_cons_zero] at this
    rw [tf3 a j ha hj, rc0 a j ha hj, rc1 a j ha hj, this, hb a j ha hj]
  have hmask : MasksOk L (xorBytes k0 k1) (addRows (rowsOf (2 ^ L) f0 n) (rowsOf (2 ^ L) f1 n)) ↔
      ∀ i, i < n → (k0.getD i 0 ^^^ k1.getD i 0).toNat < 2 ^ L := by
    constructor
    · intro h i hi
      by_contra hge
      have := (h.2 i (by rw [hlk]; exact hi)).2 ((k0.getD i 0 ^^^ k1.getD i 0).toNat % 2 ^ L) (Nat.mod_lt _ hpos)
      have hlt := Nat.mod_lt (k0.getD i 0 ^^^ k1.getD i 0).toNat hpos
      rw [hfsum i _ hi hlt, hxk i hi, decide_eq_true rfl, if_neg (by omega)] at this
      exact absurd this (by decide)
    · intro h
      refine ⟨by rw [tf1, hlk], fun i hi => ?_⟩
      rw [hlk] at hi
      refine ⟨getD_row tf1 tf2 hi, fun j hj => ?_⟩
      rw [hfsum i j hi hj, hxk i hi, Nat.mod_eq_of_lt (h i hi), word_decide]
  have hshape : genBitPermD n L k0 k1 r = (do
      checkMasks L (xorBytes k0 k1) (addRows (rowsOf (2 ^ L) f0 n) (rowsOf (2 ^ L) f1 n))
      checkAggregate (2 ^ L) (addRows (rowsOf (2 ^ L) f0 n) (rowsOf (2 ^ L) f1 n))
        (addRows (aggregateSum (rowsOf (2 ^ L) f0 n) (2 ^ L) 0) (aggregateSum (rowsOf (2 ^ L) f1 n) (2 ^ L) 1))
      let (d0, d1) ← hadamardSumD n (2 ^ L) b0 b1 (aggregateSum (rowsOf (2 ^ L) f0 n) (2 ^ L) 0)
        (aggregateSum (rowsOf (2 ^ L) f1 n) (2 ^ L) 1) r.otA r.otB r.mask
      checkPos (xorBytes k0 k1) (xorWords d0 d1)
      .ok (d0, d1)) := by
    unfold genBitPermD
    rw [decide_eq_false (by omega), throwIf_false, ok_bind, l0, l1]
    simp only [bne_self_eq_false, Bool.or_false, throwIf_false, ok_bind, eb, ef]
  rw [hshape, checkMasks_eq]
  by_cases hd : ∀ i, i < n → (k0.getD i 0 ^^^ k1.getD i 0).toNat < 2 ^ L
  swap
  · rw [if_neg (fun h => hd (hmask.mp h)), if_neg hd, err_bind]
  rw [if_pos (hmask.mpr hd), if_pos hd, ok_bind]
  have hagg : checkAggregate (2 ^ L) (addRows (rowsOf (2 ^ L) f0 n) (rowsOf (2 ^ L) f1 n))
      (addRows (aggregateSum (rowsOf (2 ^ L) f0 n) (2 ^ L) 0) (aggregateSum (rowsOf (2 ^ L) f1 n) (2 ^ L) 1)) = .ok () := by
    unfold checkAggregate
    rw [checkWeights_eq, if_pos, ok_bind, checkColumns_eq _ _ (by rw [ts1, tf1]), if_pos]
    · intro j hj i hi
      rw [tf1] at hi
      have e0 := ts3 i j hi hj
      rw [gc0 i j hi hj, gc1 i j hi hj] at e0
      simp only [Nat.zero_add]
      rw [e0, tf1]
      have eA : ∑ a ∈ Finset.range (i + 1), ((addRows (rowsOf (2 ^ L) f0 n) (rowsOf (2 ^ L) f1 n)).getD a []).getD j 0 =
          ∑ a ∈ Finset.range (i + 1), ((rowsOf (2 ^ L) f0 n).getD a []).getD j 0 +
          ∑ a ∈ Finset.range (i + 1), ((rowsOf (2 ^ L) f1 n).getD a []).getD j 0 := by
        rw [← Finset.sum_add_distrib]
        apply Finset.sum_congr rfl
        intro a ha
        rw [Finset.mem_range] at ha
        exact tf3 a j (by omega) hj
      have eB : ∑ b ∈ Finset.range j, ∑ a ∈ Finset.range n,
            ((addRows (rowsOf (2 ^ L) f0 n) (rowsOf (2 ^ L) f1 n)).getD a []).getD b 0 =
          ∑ b ∈ Finset.range j, ∑ a ∈ Finset.range n, ((rowsOf (2 ^ L) f0 n).getD a []).getD b 0 +
          ∑ b ∈ Finset.range j, ∑ a ∈ Finset.range n, ((rowsOf (2 ^ L) f1 n).getD a []).getD b 0 := by
        rw [← Finset.sum_add_distrib]
        apply Finset.sum_congr rfl
        intro b hb'
        rw [Finset.mem_range] at hb'
        rw [← Finset.sum_add_distrib]
        apply Finset.sum_congr rfl
        intro a ha
        rw [Finset.mem_range] at ha
        exact tf3 a b ha (by omega)
      rw [eA, eB]
      have : BitVec.ofNat 32 0 = 0 := rfl
      have h' : BitVec.ofNat 32 1 = 1 := rfl
      rw [this, h']
      ring
    · intro i hi
      rw [tf1] at hi
      rw [sum_onehot ((k0.getD i 0 ^^^ k1.getD i 0).toNat) _ 0, if_pos]
      · rw [getD_row tf1 tf2 hi]; have := hd i hi; omega
      · intro j hj
        rw [getD_row tf1 tf2 hi] at hj
        rw [hfsum i j hi hj, Nat.mod_eq_of_lt (hd i hi), word_decide, Nat.zero_add]
  rw [hagg, ok_bind]
  obtain ⟨d0, d1, ed, ld0, ld1, hdd⟩ := genBitPerm_ok h1 h8 hn l0 l1 hr
  have eg : genBitPerm n L k0 k1 r = hadamardSum n (2 ^ L) b0 b1 (aggregateSum (rowsOf (2 ^ L) f0 n) (2 ^ L) 0).flatten
      (aggregateSum (rowsOf (2 ^ L) f1 n) (2 ^ L) 1).flatten r.otA r.otB r.mask := by
    unfold genBitPerm
    rw [decide_eq_false (by omega), throwIf_false, ok_bind, l0, l1]
    simp only [bne_self_eq_false, Bool.or_false, throwIf_false, ok_bind, eb, ef]
  have hprod : ∀ i, i < n → prodAt b0 b1 (aggregateSum (rowsOf (2 ^ L) f0 n) (2 ^ L) 0)
      (aggregateSum (rowsOf (2 ^ L) f1 n) (2 ^ L) 1) (2 ^ L) i =
      (rank n (fun a => (k0.getD a 0 ^^^ k1.getD a 0).toNat % 2 ^ L) i : BitVec 32) := by
    intro i hi
    rw [← count_eq (n := n) (L2 := 2 ^ L) (i := i) (fun a => (k0.getD a 0 ^^^ k1.getD a 0).toNat % 2 ^ L) hi (Nat.mod_lt _ hpos)]
    apply Finset.sum_congr rfl
    intro j hj
    rw [Finset.mem_range] at hj
    rw [hb i j hi hj, gc0 i j hi hj, gc1 i j hi hj]
    congr 1
    have hA : ∑ a ∈ Finset.range (i + 1), ((rowsOf (2 ^ L) f0 n).getD a []).getD j 0 +
        ∑ a ∈ Finset.range (i + 1), ((rowsOf (2 ^ L) f1 n).getD a []).getD j 0 =
        ∑ a ∈ Finset.range (i + 1), word (decide ((k0.getD a 0 ^^^ k1.getD a 0).toNat % 2 ^ L = j)) := by
      rw [← Finset.sum_add_distrib]
      apply Finset.sum_congr rfl
      intro a ha
      rw [Finset.mem_range] at ha
      rw [← hfsum a j (by omega) hj, tf3 a j (by omega) hj]
    have hB : ∑ b ∈ Finset.range j, ∑ a ∈ Finset.range n, ((rowsOf (2 ^ L) f0 n).getD a []).getD b 0 +
        ∑ b ∈ Finset.range j, ∑ a ∈ Finset.range n, ((rowsOf (2 ^ L) f1 n).getD a []).getD b 0 =
        ∑ b ∈ Finset.range j, ∑ a ∈ Finset.range n, word (decide ((k0.getD a 0 ^^^ k1.getD a 0).toNat % 2 ^ L = b)) := by
      rw [← Finset.sum_add_distrib]
      apply Finset.sum_congr rfl
      intro b hb'
      rw [Finset.mem_range] at hb'
      rw [← Finset.sum_add_distrib]
      apply Finset.sum_congr rfl
      intro a ha
      rw [Finset.mem_range] at ha
      rw [← hfsum a b ha (by omega), tf3 a b ha (by omega)]
    rw [← hA, ← hB]
    have : BitVec.ofNat 32 0 = 0 := rfl
    have h' : BitVec.ofNat 32 1 = 1 := rfl
    rw [this, h']
    ring
  rw [hadamardSumD_eq r.mask hpos hn (by rw [lb0, lb1]) (by rw [lb0]; exact hw) ga0 ga1 gb0 gb1 hr.rowsA hr.otA hr.rowsB hr.otB
    (by
      intro i hi
      have hrk := rank_lt (n := n) (fun a => (k0.getD a 0 ^^^ k1.getD a 0).toNat % 2 ^ L) hi
      rw [hprod i hi]
      apply BitVec.eq_of_toNat_eq
      rw [lowBits_toNat (sumBits_ok hn).1, Nat.mod_eq_of_lt]
      rw [BitVec.natCast_eq_ofNat, BitVec.toNat_ofNat, Nat.mod_eq_of_lt (a := rank _ _ _) (by omega)]
      have := (sumBits_ok hn).2
      omega), ← eg, ed, ok_bind]
  simp only
  rw [checkPos_eq, if_pos, ok_bind]
  refine ⟨by rw [hlk]; simp [xorWords, ld0, ld1], fun i hi => ?_⟩
  rw [hlk] at hi
  have hx : (xorWords d0 d1).getD i 0 = d0.getD i 0 ^^^ d1.getD i 0 := by
    have h1 : i < d0.length := by omega
    have h2 : i < d1.length := by omega
    simp [xorWords, List.getD_eq_getElem?_getD, List.getElem?_zipWith, h1, h2]
  rw [hx, hdd i hi, hlk]
  apply rank_congr _ hi
  intro a ha
  rw [hxk a ha, Nat.mod_eq_of_lt (hd a ha)]

end Radix
end SecJoin
