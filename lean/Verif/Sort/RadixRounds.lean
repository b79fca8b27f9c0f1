import Verif.Sort.RadixSum
import Verif.AggTree.ShuffleLemmas
/-!
# Lemmas for the secure radix sort: all rounds
-/
namespace SecJoin
namespace Radix

/-! ## Ranks -/

theorem rank_lt_rank {n a b : Nat} (key : Nat → Nat) (ha : a < n) (h : KeyOrder key a b) :
    rank n key a < rank n key b := by
  unfold rank KeyOrder at *
  apply Finset.card_lt_card
  rw [Finset.ssubset_iff_of_subset]
  · refine ⟨a, by simp only [Finset.mem_filter, Finset.mem_range]; exact ⟨ha, h⟩, ?_⟩
    simp
  · intro c hc
    simp only [Finset.mem_filter, Finset.mem_range] at hc ⊢
    omega

theorem rank_lt_iff {n a b : Nat} (key : Nat → Nat) (ha : a < n) (hb : b < n) :
    rank n key a < rank n key b ↔ KeyOrder key a b := by
  constructor
  · intro h
    by_cases hab : a = b
    · subst hab; omega
    · by_contra hc
      have : KeyOrder key b a := by unfold KeyOrder at *; omega
      have := rank_lt_rank key hb this
      omega
  · exact rank_lt_rank key ha

theorem rank_inj {n a b : Nat} (key : Nat → Nat) (ha : a < n) (hb : b < n) (h : rank n key a = rank n key b) : a = b := by
  by_contra hc
  have : KeyOrder key a b ∨ KeyOrder key b a := by unfold KeyOrder; omega
  rcases this with h' | h'
  · have := rank_lt_rank key ha h'; omega
  · have := rank_lt_rank key hb h'; omega

theorem rankList_perm (n : Nat) (key : Nat → Nat) : IsPermList ((List.range n).map (rank n key)) := by
  constructor
  · intro x hx
    obtain ⟨i, hi, rfl⟩ := List.mem_map.mp hx
    rw [List.length_map, List.length_range]
    exact rank_lt key (List.mem_range.mp hi)
  · rw [List.nodup_map_iff_inj_on List.nodup_range]
    intro a ha b hb h
    exact rank_inj key (List.mem_range.mp ha) (List.mem_range.mp hb) h

theorem rank_congr {n i : Nat} {k k' : Nat → Nat} (h : ∀ a, a < n → k a = k' a) (hi : i < n) : rank n k i = rank n k' i := by
  unfold rank
  congr 1
  apply Finset.filter_congr
  intro a ha
  rw [h a (Finset.mem_range.mp ha), h i hi]

theorem rank_image (n : Nat) (key : Nat → Nat) : (Finset.range n).image (rank n key) = Finset.range n := by
  apply Finset.eq_of_subset_of_card_le
  · intro x hx
    obtain ⟨a, ha, rfl⟩ := Finset.mem_image.mp hx
    rw [Finset.mem_range] at ha ⊢
    exact rank_lt key ha
  · rw [Finset.card_image_of_injOn]
    intro a ha b hb h
    simp only [Finset.coe_range, Set.mem_Iio] at ha hb
    exact rank_inj key ha hb h

/-- The step of the least significant digit sort: the position, in the sort by the next digit, of the place a row has in
the sort so far, is its position in the sort by both. -/
theorem rank_step {n M : Nat} {key dig d' : Nat → Nat} (hk : ∀ a, a < n → key a < M)
    (hd : ∀ a, a < n → d' (rank n key a) = dig a) {i : Nat} (hi : i < n) :
    rank n d' (rank n key i) = rank n (fun a => key a + M * dig a) i := by
  unfold rank
  rw [← Finset.card_image_of_injOn (s := (Finset.range n).filter fun a =>
    (key a + M * dig a < key i + M * dig i ∨ (key a + M * dig a = key i + M * dig i ∧ a < i))) (f := rank n key)]
  · congr 1
    have hcmp : ∀ a, a < n → ((d' (rank n key a) < d' (rank n key i) ∨
        (d' (rank n key a) = d' (rank n key i) ∧ rank n key a < rank n key i)) ↔
        (key a + M * dig a < key i + M * dig i ∨ (key a + M * dig a = key i + M * dig i ∧ a < i))) := by
      intro a ha
      rw [hd a ha, hd i hi, rank_lt_iff key ha hi]
      have h1 := hk a ha
      have h2 := hk i hi
      unfold KeyOrder
      rcases Nat.lt_trichotomy (dig a) (dig i) with h | h | h
      · have : M * (dig a + 1) ≤ M * dig i := Nat.mul_le_mul_left _ h
        rw [Nat.mul_add] at this
        omega
      · rw [h]; omega
      · have : M * (dig i + 1) ≤ M * dig a := Nat.mul_le_mul_left _ h
        rw [Nat.mul_add] at this
        omega
    ext q
    simp only [Finset.mem_filter, Finset.mem_image, Finset.mem_range]
    constructor
    · rintro ⟨hq, h⟩
      have : q ∈ (Finset.range n).image (rank n key) := by rw [rank_image]; exact Finset.mem_range.mpr hq
      obtain ⟨a, ha, rfl⟩ := Finset.mem_image.mp this
      rw [Finset.mem_range] at ha
      exact ⟨a, ⟨ha, (hcmp a ha).mp h⟩, rfl⟩
    · rintro ⟨a, ⟨ha, h⟩, rfl⟩
      exact ⟨rank_lt key ha, (hcmp a ha).mpr h⟩
  · intro a ha b hb h
    simp only [Finset.coe_filter, Finset.mem_range, Set.mem_ofPred_eq] at ha hb
    exact rank_inj key ha.1 hb.1 h

/-! ## The digits of the keys -/

theorem digits_val {n begin L : Nat} {k0 k1 : Mat Row} (h0 : Shape n k0.cols k0.rows) (h1 : Shape n k0.cols k1.rows)
    (hc : k1.cols = k0.cols) (hb : begin < 8 * k0.cols) (hL : 0 < L) (h8 : L ≤ 8) {i : Nat} (hi : i < n) :
    ((digits begin L k0).getD i 0 ^^^ (digits begin L k1).getD i 0).toNat = rowKey (xm k0.rows k1.rows) i / 2 ^ begin % 2 ^ L := by
  apply Nat.eq_of_testBit_eq
  intro j
  rw [Nat.testBit_mod_two_pow, Nat.testBit_div_two_pow, rowKey, bytesNat_testBit, xm, xm_getD h0 h1 hi,
    bitOf_xorRow (by rw [shape_getD h0 hi, shape_getD h1 hi]), BitVec.testBit_toNat, BitVec.getLsbD_xor]
  by_cases hj : j < 8
  · rw [digits_bit h0 hb hL h8 hi hj, digits_bit (k := k1) (by rw [hc]; exact h1) (by rw [hc]; exact hb) hL h8 hi hj,
      Nat.add_comm begin j]
    cases decide (j < L) <;> simp
  · rw [BitVec.getLsbD_of_ge _ _ (by omega), BitVec.getLsbD_of_ge _ _ (by omega), decide_eq_false (by omega)]
    rfl

theorem byteCol_shape {n : Nat} {v : List Byte} (h : v.length = n) : Shape n 1 (byteCol v).rows :=
  ⟨by simp [byteCol, h], by intro r hr; obtain ⟨b, _, rfl⟩ := List.mem_map.mp hr; rfl⟩

theorem byteCol_at {v : List Byte} {i : Nat} (h : i < v.length) : byteAt (byteCol v).rows i 0 = v.getD i 0 := by
  simp [byteAt, byteCol, List.getD_eq_getElem?_getD, h]

theorem colBytes_ok {n c : Nat} {x : List Row} (h : Shape n 1 x) :
    colBytes ⟨c, x⟩ = .ok ((List.range n).map fun i => byteAt x i 0) := by
  unfold colBytes
  rw [mapRes_ok (g := fun r => r.getD 0 0)]
  · congr 1
    apply List.ext_getElem (by simp [h.1])
    intro i h1 h2
    have : i < x.length := by simpa using h1
    simp [byteAt, List.getD_eq_getElem?_getD, this]
  · intro r hr
    have := h.2 r hr
    rw [rd_ok (by omega)]
    simp [List.getD_eq_getElem?_getD, this]

/-! ## The rounds -/

/-- The shares `d0`, `d1` are of the positions `rank n key`. -/
def Ranked (n : Nat) (key : Nat → Nat) (d0 d1 : List (BitVec 32)) : Prop :=
  d0.length = n ∧ d1.length = n ∧ ∀ i, i < n → (d0.getD i 0 ^^^ d1.getD i 0).toNat = rank n key i

theorem Ranked.list {n : Nat} {key : Nat → Nat} {d0 d1 : List (BitVec 32)} (h : Ranked n key d0 d1) :
    (List.zipWith (· ^^^ ·) d0 d1).map BitVec.toNat = (List.range n).map (rank n key) := by
  obtain ⟨h0, h1, h2⟩ := h
  apply List.ext_getElem (by simp [h0, h1])
  intro i hi _
  have hi' : i < n := by simp [h0, h1] at hi; exact hi
  have := h2 i hi'
  rw [← h0] at hi'
  have hi1 : i < d1.length := by omega
  simp [List.getD_eq_getElem?_getD, hi', hi1] at this ⊢
  rw [this]

/-- The preprocessing of a round after the first: a valid shared permutation with enough bytes left, and enough OTs. -/
structure StepOk (n L W0 o0 W1 o1 : Nat) (s : ComposedPerm × ComposedPerm × RoundRnd) : Prop where
  comp : CompInv n W0 o0 W1 o1 s.1 s.2.1
  rnd : s.2.2.Ok n L
  room0 : o0 + 5 ≤ W0
  room1 : o1 + 9 ≤ W1

theorem step_ok {n L W0 o0 W1 o1 M : Nat} (hn0 : 0 < n) (hn : n ≤ 2 ^ 32) (h1 : 1 ≤ L) (h8 : L ≤ 8)
    {c0 c1 : ComposedPerm} {r : RoundRnd} (hs : StepOk n L W0 o0 W1 o1 (c0, c1, r)) {key : Nat → Nat}
    (hM : ∀ a, a < n → key a < M) {d0 d1 : List (BitVec 32)} (hd : Ranked n key d0 d1)
    {sk0 sk1 : List Byte} (l0 : sk0.length = n) (l1 : sk1.length = n)
    (hlow : ∀ i, i < n → (sk0.getD i 0 ^^^ sk1.getD i 0).toNat < 2 ^ L) :
    ∃ a0 a1 b0 b1 x0 x1 ssk0 ssk1 p0 p1 e0 e1 f0 f1,
      ComposedPerm.derandomizeBoth c0 c1 d0 d1 = .ok (a0, a1) ∧
      ComposedPerm.applyBoth a0 a1 .inverse (byteCol sk0) (byteCol sk1) = .ok (b0, b1, x0, x1) ∧
      colBytes x0 = .ok ssk0 ∧ colBytes x1 = .ok ssk1 ∧
      genBitPerm n L ssk0 ssk1 r = .ok (p0, p1) ∧
      ComposedPerm.composeBoth b0 b1 p0 p1 = .ok (f0, f1, e0, e1) ∧
      Ranked n (fun a => key a + M * (sk0.getD a 0 ^^^ sk1.getD a 0).toNat) e0 e1 := by
  have hl := hd.list
  obtain ⟨a0, a1, ea, ca, ga⟩ := composed_derandomize_ok hs.comp hn0 hd.1 hd.2.1 (by rw [hl]; exact rankList_perm n key)
    (by have := hs.room1; omega)
  rw [hl] at ga
  obtain ⟨b0, b1, y0, y1, eb, cb, pb0, pb1, sy0, sy1, xy⟩ := composed_applyBoth_ok ca hn0 (op := .inverse)
    (x0 := byteCol sk0) (x1 := byteCol sk1) (byteCol_shape l0) (byteCol_shape l1) rfl
    (by have := hs.room0; simp only [byteCol]; omega) (by have := hs.room1; simp only [byteCol]; omega)
  have hc1 : (byteCol sk0).cols = 1 := rfl
  rw [hc1] at eb cb sy0 sy1
  obtain ⟨p0, p1, ep, lp0, lp1, hp⟩ := genBitPerm_ok (n := n) (L := L) h1 h8 hn
    (k0 := (List.range n).map fun i => byteAt y0 i 0) (k1 := (List.range n).map fun i => byteAt y1 i 0) (by simp) (by simp)
    (r := r) hs.rnd
  obtain ⟨f0, f1, e0, e1, ee, _, _, _, le0, le1, he⟩ := composeBoth_ok cb hn0 lp0 lp1
    (by have := hs.room0; omega) (by have := hs.room1; omega)
  refine ⟨a0, a1, b0, b1, _, _, _, _, p0, p1, e0, e1, f0, f1, ea, eb, colBytes_ok sy0, colBytes_ok sy1, ep, ee, le0, le1, ?_⟩
  intro i hi
  have hg : gather b1.snd.perm.pi b0.snd.perm.pi = (List.range n).map (rank n key) := by rw [pb0, pb1]; exact ga
  rw [hg] at he
  have hperm := rankList_perm n key
  have hrk := rank_lt (n := n) key hi
  have hbnd : ∀ x ∈ (List.range n).map (rank n key), x < (List.zipWith (· ^^^ ·) p0 p1).length := by
    intro x hx
    have := hperm.1 x hx
    simpa [lp0, lp1] using this
  have e1' : (e0.getD i 0 ^^^ e1.getD i 0) = p0.getD (rank n key i) 0 ^^^ p1.getD (rank n key i) 0 := by
    have hi0 : i < e0.length := by omega
    have hi1 : i < e1.length := by omega
    have hr0 : rank n key i < p0.length := by omega
    have hr1 : rank n key i < p1.length := by omega
    have h2 : (List.zipWith (· ^^^ ·) e0 e1)[i]? = (List.zipWith (· ^^^ ·) p0 p1)[rank n key i]? := by
      rw [he, gather_getElem? hbnd]
      simp [hi]
    simp only [List.getElem?_zipWith] at h2
    simp [hi0, hi1, hr0, hr1] at h2
    simp [List.getD_eq_getElem?_getD, hi0, hi1, hr0, hr1, h2]
  rw [e1', hp _ hrk]
  apply rank_step hM _ hi
  intro a ha
  have hra := rank_lt (n := n) key ha
  have e2 : ∀ y : List Row, ((List.range n).map fun i => byteAt y i 0).getD (rank n key a) 0 = byteAt y (rank n key a) 0 := by
    intro y
    simp [List.getD_eq_getElem?_getD, hra]
  simp only [e2]
  have e3 : byteAt y0 (rank n key a) 0 ^^^ byteAt y1 (rank n key a) 0 = sk0.getD a 0 ^^^ sk1.getD a 0 := by
    rw [← byteAt_xm sy0 sy1 hra (by omega), xy, ga]
    have := byteAt_permRows_inverse (n := n) (c := 1) (pi := (List.range n).map (rank n key))
      (x := xm (byteCol sk0).rows (byteCol sk1).rows) hperm (by simp) (xm_shape (byteCol_shape l0) (byteCol_shape l1))
      (i := a) (j := 0) ha
    have e4 : ((List.range n).map (rank n key)).getD a 0 = rank n key a := by simp [List.getD_eq_getElem?_getD, ha]
    rw [e4] at this
    rw [this, byteAt_xm (byteCol_shape l0) (byteCol_shape l1) ha (by omega), byteCol_at (by omega), byteCol_at (by omega)]
  rw [e3, Nat.mod_eq_of_lt (hlow a ha)]

theorem genPermLoop_ok {n L : Nat} (hn0 : 0 < n) (hn : n ≤ 2 ^ 32) (h1 : 1 ≤ L) (h8 : L ≤ 8) {k0 k1 : Mat Row}
    (s0 : Shape n k0.cols k0.rows) (s1 : Shape n k0.cols k1.rows) (hc : k1.cols = k0.cols) :
    ∀ (left : Nat) (rs : List (ComposedPerm × ComposedPerm × RoundRnd)) (kIdx : Nat) (d0 d1 : List (BitVec 32)),
      left ≤ rs.length → (∀ s ∈ rs, ∃ W0 o0 W1 o1, StepOk n L W0 o0 W1 o1 s) →
      (∀ t, t < left → kIdx + t * L < 8 * k0.cols) →
      Ranked n (fun a => rowKey (xm k0.rows k1.rows) a % 2 ^ kIdx) d0 d1 →
      ∃ e0 e1, genPermLoop n L k0 k1 left rs kIdx d0 d1 = .ok (e0, e1) ∧
        Ranked n (fun a => rowKey (xm k0.rows k1.rows) a % 2 ^ (kIdx + left * L)) e0 e1 := by
  intro left
  induction left with
  | zero =>
    intro rs kIdx d0 d1 _ _ _ hd
    exact ⟨d0, d1, rfl, by simpa using hd⟩
  | succ left ih =>
    intro rs kIdx d0 d1 hl hrs hk hd
    match rs, hl with
    | (c0, c1, r) :: rs, hl =>
      obtain ⟨W0, o0, W1, o1, hs⟩ := hrs _ List.mem_cons_self
      have hk0 : kIdx < 8 * k0.cols := by have := hk 0 (by omega); omega
      have hv : ∀ i, i < n → ((digits kIdx L k0).getD i 0 ^^^ (digits kIdx L k1).getD i 0).toNat =
          rowKey (xm k0.rows k1.rows) i / 2 ^ kIdx % 2 ^ L := fun i hi => digits_val s0 s1 hc hk0 h1 h8 hi
      obtain ⟨a0, a1, b0, b1, x0, x1, ssk0, ssk1, p0, p1, e0, e1, f0, f1, E1, E2, E3, E4, E5, E6, hR⟩ :=
        step_ok hn0 hn h1 h8 hs (M := 2 ^ kIdx) (fun a _ => Nat.mod_lt _ (Nat.two_pow_pos _)) hd
          (sk0 := digits kIdx L k0) (sk1 := digits kIdx L k1) (by rw [digits_length, s0.1]) (by rw [digits_length, s1.1])
          (fun i hi => by rw [hv i hi]; exact Nat.mod_lt _ (Nat.two_pow_pos _))
      have hR' : Ranked n (fun a => rowKey (xm k0.rows k1.rows) a % 2 ^ (kIdx + L)) e0 e1 := by
        refine ⟨hR.1, hR.2.1, fun i hi => ?_⟩
        rw [hR.2.2 i hi]
        apply rank_congr _ hi
        intro a ha
        rw [hv a ha, Nat.pow_add, Nat.mod_mul]
      obtain ⟨g0, g1, eg, hg⟩ := ih rs (kIdx + L) e0 e1 (by simpa using hl) (fun s hs => hrs s (List.mem_cons_of_mem _ hs))
        (fun t ht => by have := hk (t + 1) (by omega); rw [Nat.add_mul] at this; omega) hR'
      refine ⟨g0, g1, ?_, ?_⟩
      · rw [genPermLoop, extract_ok s0 hn0 hk0 h1 h8, ok_bind,
          extract_ok (k := k1) (by rw [hc]; exact s1) hn0 (by rw [hc]; exact hk0) h1 h8]
        simp only [ok_bind, E1, E2, E3, E4, E5, E6, eg]
      · rw [show kIdx + (left + 1) * L = kIdx + L + left * L by rw [Nat.add_mul]; omega]
        exact hg

theorem genPerm_ok {n bits L : Nat} (hn0 : 0 < n) (hn : n ≤ 2 ^ 32) (hb : 0 < bits) (h1 : 1 ≤ L) (h8 : L ≤ 8)
    {k0 k1 : BinMatrix} (b0 : k0.bits = bits) (b1 : k1.bits = bits) (c0 : bits ≤ 8 * k0.cols) (hc : k1.cols = k0.cols)
    (s0 : Shape n k0.cols k0.rows) (s1 : Shape n k0.cols k1.rows)
    {first : RoundRnd} (hf : first.Ok n L) {rest : List (ComposedPerm × ComposedPerm × RoundRnd)}
    (hl : divCeil bits L ≤ rest.length + 1) (hr : ∀ s ∈ rest, ∃ W0 o0 W1 o1, StepOk n L W0 o0 W1 o1 s) :
    ∃ d0 d1, genPerm n bits L k0 k1 first rest = .ok (d0, d1) ∧
      Ranked n (fun a => rowKey (xm k0.rows k1.rows) a % 2 ^ (L * divCeil bits L)) d0 d1 := by
  have s0' : Shape n k0.mat.cols k0.mat.rows := s0
  have s1' : Shape n k0.mat.cols k1.mat.rows := s1
  have hcm : k1.mat.cols = k0.mat.cols := hc
  have hcm0 : k0.mat.cols = k0.cols := rfl
  have hk0 : 0 < 8 * k0.mat.cols := by rw [hcm0]; omega
  have hR : 0 < divCeil bits L := by unfold divCeil; apply Nat.div_pos <;> omega
  have hRL : (divCeil bits L - 1) * L < bits := by
    have : divCeil bits L * L ≤ bits + L - 1 := Nat.div_mul_le_self _ _
    rw [Nat.sub_mul]; omega
  have hv : ∀ i, i < n → ((digits 0 L k0.mat).getD i 0 ^^^ (digits 0 L k1.mat).getD i 0).toNat =
      rowKey (xm k0.mat.rows k1.mat.rows) i / 2 ^ 0 % 2 ^ L := fun i hi => digits_val s0' s1' hcm hk0 h1 h8 hi
  obtain ⟨d0, d1, ed, l0, l1, hd⟩ := genBitPerm_ok h1 h8 hn (k0 := digits 0 L k0.mat) (k1 := digits 0 L k1.mat)
    (by rw [digits_length]; exact s0.1) (by rw [digits_length]; exact s1.1) hf
  have hd' : Ranked n (fun a => rowKey (xm k0.mat.rows k1.mat.rows) a % 2 ^ L) d0 d1 := by
    refine ⟨l0, l1, fun i hi => ?_⟩
    rw [hd i hi]
    apply rank_congr _ hi
    intro a ha
    simp only [hv a ha, Nat.pow_zero, Nat.div_one, Nat.mod_mod]
  obtain ⟨e0, e1, ee, he⟩ := genPermLoop_ok hn0 hn h1 h8 s0' s1' hcm (divCeil bits L - 1) rest L d0 d1 (by omega) hr
    (fun t ht => by
      have : (t + 1) * L ≤ (divCeil bits L - 1) * L := Nat.mul_le_mul_right _ ht
      rw [Nat.add_mul] at this
      rw [hcm0]; omega) hd'
  refine ⟨e0, e1, ?_, ?_⟩
  · unfold genPerm checkKey
    simp only [s0.1, s1.1, b0, b1, bne_self_eq_false, throwIf_false, ok_bind]
    rw [extract_ok s0' hn0 hk0 h1 h8, ok_bind, extract_ok (k := k1.mat) (by rw [hcm]; exact s1') hn0 (by rw [hcm]; exact hk0) h1 h8,
      ok_bind, if_neg (by omega), ed, ok_bind]
    exact ee
  · have : L * divCeil bits L = L + (divCeil bits L - 1) * L := by
      rw [Nat.mul_comm, Nat.sub_mul]
      have : L ≤ divCeil bits L * L := Nat.le_mul_of_pos_left _ hR
      omega
    rw [this]
    exact he

end Radix
end SecJoin
