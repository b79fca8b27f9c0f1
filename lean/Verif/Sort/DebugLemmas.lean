import Verif.Sort.Debug
import Verif.Sort.RadixRounds
import Verif.Sort.PlainProps
/-!
# Lemmas about the checks of a sort in debug mode
-/
namespace SecJoin
namespace Radix

theorem throwIf_ok {b : Bool} {x : Res α} : (throwIf b >>= fun _ => x) = if b then .error .throw else x := by
  cases b <;> rfl

theorem bne_of_eq [BEq α] [LawfulBEq α] {a b : α} (h : a = b) : (a != b) = false := by rw [h]; simp

theorem bne_of_ne [BEq α] [LawfulBEq α] {a b : α} (h : a ≠ b) : (a != b) = true := by simpa using h

theorem checkMaskRow_eq (kj : Nat) : ∀ (r : List (BitVec 32)) (i : Nat), checkMaskRow kj i r =
    if ∀ j, j < r.length → r.getD j 0 = if kj = i + j then 1 else 0 then .ok () else .error .throw := by
  intro r
  induction r with
  | nil => intro i; rw [if_pos (by intro j hj; simp at hj)]; rfl
  | cons x r ih =>
    intro i
    have hsplit : (∀ j, j < (x :: r).length → (x :: r).getD j 0 = if kj = i + j then 1 else 0) ↔
        (x = if kj = i then 1 else 0) ∧ ∀ j, j < r.length → r.getD j 0 = if kj = i + 1 + j then 1 else 0 := by
      constructor
      · intro h
        refine ⟨by simpa using h 0 (by simp), fun j hj => ?_⟩
        have := h (j + 1) (by simpa using hj)
        rw [List.getD_cons_succ] at this
        rw [this, show i + (j + 1) = i + 1 + j by omega]
      · rintro ⟨h1, h2⟩ j hj
        cases j with
        | zero => simpa using h1
        | succ j =>
          rw [List.getD_cons_succ, h2 j (by simpa using hj), show i + (j + 1) = i + 1 + j by omega]
    unfold checkMaskRow
    rw [ih (i + 1)]
    by_cases hk : kj = i
    · rw [if_pos hk, throwIf_ok]
      by_cases hx : x = 1
      · rw [bne_of_eq hx, if_neg (by simp)]
        refine if_congr ?_ rfl rfl
        rw [hsplit, if_pos hk]
        exact ⟨fun h => ⟨hx, h⟩, fun h => h.2⟩
      · rw [show (x != 1) = true by simpa using hx, if_pos rfl, if_neg]
        rw [hsplit, if_pos hk]
        exact fun h => hx h.1
    · rw [if_neg hk, throwIf_ok]
      by_cases hx : x = 0
      · rw [bne_of_eq hx, if_neg (by simp)]
        refine if_congr ?_ rfl rfl
        rw [hsplit, if_neg hk]
        exact ⟨fun h => ⟨hx, h⟩, fun h => h.2⟩
      · rw [show (x != 0) = true by simpa using hx, if_pos rfl, if_neg]
        rw [hsplit, if_neg hk]
        exact fun h => hx h.1

theorem forall_cons {n : Nat} {p : Nat → Prop} : (∀ i, i < n + 1 → p i) ↔ p 0 ∧ ∀ i, i < n → p (i + 1) := by
  constructor
  · exact fun h => ⟨h 0 (by omega), fun i hi => h (i + 1) (by omega)⟩
  · rintro ⟨h0, h1⟩ i hi
    cases i with
    | zero => exact h0
    | succ i => exact h1 i (by omega)

theorem checkMaskRows_eq : ∀ (k : List Byte) (f : List (List (BitVec 32))), f.length = k.length → checkMaskRows k f =
    if ∀ i, i < k.length → ∀ j, j < (f.getD i []).length →
      (f.getD i []).getD j 0 = if (k.getD i 0).toNat = j then 1 else 0 then .ok () else .error .throw := by
  intro k
  induction k with
  | nil => intro f _; rw [if_pos (by intro i hi; simp at hi)]; rfl
  | cons b k ih =>
    intro f hf
    cases f with
    | nil => simp at hf
    | cons r f =>
      rw [checkMaskRows, checkMaskRow_eq, ih f (by simpa using hf)]
      simp only [List.length_cons, forall_cons (n := k.length), List.getD_cons_zero, List.getD_cons_succ, Nat.zero_add]
      by_cases h : ∀ j, j < r.length → r.getD j 0 = if b.toNat = j then 1 else 0
      · rw [if_pos h, ok_bind]
        refine if_congr ?_ rfl rfl
        exact ⟨fun h' => ⟨h, h'⟩, fun h' => h'.2⟩
      · rw [if_neg h, err_bind, if_neg (fun h' => h h'.1)]

/-- The digits and the one-hot rows fit. -/
def MasksOk (L : Nat) (k : List Byte) (f : List (List (BitVec 32))) : Prop :=
  f.length = k.length ∧ ∀ i, i < k.length → (f.getD i []).length = 2 ^ L ∧
    ∀ j, j < 2 ^ L → (f.getD i []).getD j 0 = if (k.getD i 0).toNat = j then 1 else 0

theorem any_len {f : List (List (BitVec 32))} {c : Nat} : (f.any fun r => r.length != c) = false ↔
    ∀ i, i < f.length → (f.getD i []).length = c := by
  rw [List.any_eq_false]
  constructor
  · intro h i hi
    have := h _ (List.getElem_mem hi)
    simpa [List.getD_eq_getElem?_getD, hi] using this
  · intro h r hr
    obtain ⟨i, hi, rfl⟩ := List.mem_iff_getElem.mp hr
    simpa [List.getD_eq_getElem?_getD, hi] using h i hi

open Classical in
theorem checkMasks_eq (L : Nat) (k : List Byte) (f : List (List (BitVec 32))) :
    checkMasks L k f = if MasksOk L k f then .ok () else .error .throw := by
  unfold checkMasks
  rw [throwIf_ok]
  by_cases h1 : f.length = k.length
  · rw [show (f.length != k.length) = false by simp [h1], if_neg (by simp), throwIf_ok]
    by_cases h2 : ∀ i, i < f.length → (f.getD i []).length = 2 ^ L
    · rw [any_len.mpr h2, if_neg (by simp), checkMaskRows_eq k f h1]
      rw [h1] at h2
      apply if_congr _ rfl rfl
      unfold MasksOk
      constructor
      · exact fun h => ⟨h1, fun i hi => ⟨h2 i hi, fun j hj => h i hi j (by rw [h2 i hi]; exact hj)⟩⟩
      · exact fun h i hi j hj => (h.2 i hi).2 j (by rw [h2 i hi] at hj; exact hj)
    · rw [show (f.any fun r => r.length != 2 ^ L) = true by
        rw [← Bool.not_eq_false]; exact fun h => h2 (any_len.mp h), if_pos rfl, if_neg]
      exact fun h => h2 fun i hi => (h.2 i (by rw [← h1]; exact hi)).1
  · rw [show (f.length != k.length) = true by simpa using h1, if_pos rfl, if_neg (fun h => h1 h.1)]

theorem checkWeights_eq : ∀ f : List (List (BitVec 32)), checkWeights f =
    if ∀ i, i < f.length → ((f.getD i []).map BitVec.toNat).sum = 1 then .ok () else .error .throw := by
  intro f
  induction f with
  | nil => rw [if_pos (by intro i hi; simp at hi)]; rfl
  | cons r f ih =>
    rw [checkWeights, throwIf_ok, ih]
    simp only [List.length_cons, forall_cons (n := f.length), List.getD_cons_zero, List.getD_cons_succ]
    by_cases h : (r.map BitVec.toNat).sum = 1
    · rw [show ((r.map BitVec.toNat).sum != 1) = false by simp [h], if_neg (by simp)]
      simp only [h, true_and]
    · rw [show ((r.map BitVec.toNat).sum != 1) = true by simpa using h, if_pos rfl, if_neg (fun h' => h h'.1)]

theorem checkColumn_eq (j : Nat) : ∀ (f s : List (List (BitVec 32))) (c : BitVec 32), s.length = f.length →
    checkColumn j f s c = if ∀ i, i < f.length → (s.getD i []).getD j 0 =
        c + ∑ a ∈ Finset.range (i + 1), (f.getD a []).getD j 0
      then .ok (c + ∑ a ∈ Finset.range f.length, (f.getD a []).getD j 0) else .error .throw := by
  intro f
  induction f with
  | nil => intro s c _; rw [if_pos (by intro i hi; simp at hi)]; simp [checkColumn]
  | cons r f ih =>
    intro s c hs
    cases s with
    | nil => simp at hs
    | cons t s =>
      rw [checkColumn, throwIf_ok, ih s _ (by simpa using hs)]
      simp only [List.length_cons, forall_cons (n := f.length), List.getD_cons_zero, List.getD_cons_succ]
      have e1 : ∀ m, c + ∑ a ∈ Finset.range (m + 1), ((r :: f).getD a []).getD j 0 =
          c + r.getD j 0 + ∑ a ∈ Finset.range m, (f.getD a []).getD j 0 := by
        intro m
        rw [Finset.sum_range_succ']
        simp only [List.getD_cons_zero, List.getD_cons_succ]
        ring
      simp only [e1]
      rw [Finset.range_zero, Finset.sum_empty, add_zero]
      by_cases h : t.getD j 0 = c + r.getD j 0
      · rw [bne_of_eq h, if_neg (by simp)]
        refine if_congr ?_ rfl rfl
        exact ⟨fun h' => ⟨h, h'⟩, fun h' => h'.2⟩
      · rw [bne_of_ne h, if_pos rfl, if_neg (fun h' => h h'.1)]

theorem checkColumns_eq (f s : List (List (BitVec 32))) (hs : s.length = f.length) : ∀ (m j : Nat) (c : BitVec 32),
    checkColumns f s m j c = if ∀ t, t < m → ∀ i, i < f.length → (s.getD i []).getD (j + t) 0 =
        c + ∑ b ∈ Finset.range t, ∑ a ∈ Finset.range f.length, (f.getD a []).getD (j + b) 0 +
          ∑ a ∈ Finset.range (i + 1), (f.getD a []).getD (j + t) 0
      then .ok () else .error .throw := by
  intro m
  induction m with
  | zero => intro j c; rw [if_pos (by intro t ht; omega)]; rfl
  | succ m ih =>
    intro j c
    rw [checkColumns, checkColumn_eq j f s c hs]
    simp only [forall_cons (n := m), Finset.range_zero, Finset.sum_empty, add_zero]
    by_cases h : ∀ i, i < f.length → (s.getD i []).getD j 0 = c + ∑ a ∈ Finset.range (i + 1), (f.getD a []).getD j 0
    · rw [if_pos h, ok_bind, ih]
      apply if_congr _ rfl rfl
      refine Iff.trans ?_ (⟨fun h' => ⟨h, h'⟩, fun h' => h'.2⟩ : _ ↔ _)
      apply forall_congr'
      intro t
      apply forall_congr'
      intro _
      apply forall_congr'
      intro i
      apply forall_congr'
      intro _
      rw [Finset.sum_range_succ' (fun b => ∑ a ∈ Finset.range f.length, (f.getD a []).getD (j + b) 0), Nat.add_zero,
        show j + 1 + t = j + (t + 1) by omega]
      have : ∑ b ∈ Finset.range t, ∑ a ∈ Finset.range f.length, (f.getD a []).getD (j + 1 + b) 0 =
          ∑ b ∈ Finset.range t, ∑ a ∈ Finset.range f.length, (f.getD a []).getD (j + (b + 1)) 0 := by
        apply Finset.sum_congr rfl
        intro b _
        rw [show j + 1 + b = j + (b + 1) by omega]
      rw [this]
      have e : ∀ a b d e : BitVec 32, a + b + d + e = a + (d + b) + e := by intros; ring
      exact iff_of_eq (congrArg _ (e _ _ _ _))
    · rw [if_neg h, err_bind, if_neg (fun h' => h h'.1)]

theorem innerExp_ok {f : List Byte} : ∀ (s : List (BitVec 32)) (k : Nat), k + s.length ≤ 8 * f.length →
    innerExp f k s = .ok (∑ j ∈ Finset.range s.length, word (bitOf f (k + j)) * s.getD j 0) := by
  intro s
  induction s with
  | nil => intro k _; simp [innerExp]
  | cons x s ih =>
    intro k hk
    rw [List.length_cons] at hk
    rw [innerExp, flatBit_ok (by omega), ok_bind, ih (k + 1) (by omega), ok_bind, List.length_cons, Finset.sum_range_succ',
      List.getD_cons_zero, Nat.add_zero, add_comm]
    congr 2
    apply Finset.sum_congr rfl
    intro j _
    rw [List.getD_cons_succ, show k + 1 + j = k + (j + 1) by omega]

theorem checkInner_eq {f : List Byte} {cols : Nat} : ∀ (s : List (List (BitVec 32))) (d : List (BitVec 32)) (i : Nat),
    s.length = d.length → (∀ r ∈ s, r.length = cols) → (i + s.length) * cols ≤ 8 * f.length →
    checkInner f cols i s d = if ∀ t, t < d.length → d.getD t 0 =
        ∑ j ∈ Finset.range cols, word (bitOf f ((i + t) * cols + j)) * (s.getD t []).getD j 0
      then .ok () else .error .throw := by
  intro s
  induction s with
  | nil =>
    intro d i hl _ _
    rw [List.length_nil] at hl
    rw [if_pos (by intro t ht; omega)]; rfl
  | cons r s ih =>
    intro d i hl hr hb
    cases d with
    | nil => simp at hl
    | cons x d =>
      have hrl := hr r List.mem_cons_self
      rw [List.length_cons] at hb
      rw [checkInner, innerExp_ok r _ (by
        rw [hrl]
        have : (i + 1) * cols ≤ (i + (s.length + 1)) * cols := Nat.mul_le_mul_right _ (by omega)
        rw [Nat.add_mul] at this
        omega), ok_bind, throwIf_ok,
        ih d (i + 1) (by simpa using hl) (fun r' h' => hr r' (List.mem_cons_of_mem _ h'))
          (by rw [show i + 1 + s.length = i + (s.length + 1) by omega]; exact hb)]
      simp only [List.length_cons, forall_cons (n := d.length), List.getD_cons_zero, List.getD_cons_succ, Nat.add_zero, hrl,
        show ∀ t, i + 1 + t = i + (t + 1) from fun t => by omega]
      by_cases h : x = ∑ j ∈ Finset.range cols, word (bitOf f (i * cols + j)) * r.getD j 0
      · rw [← h, show (x != x) = false by simp, if_neg (by simp)]
        simp only [true_and]
      · rw [show ((∑ j ∈ Finset.range cols, word (bitOf f (i * cols + j)) * r.getD j 0) != x) = true by
          simpa using fun h' => h h'.symm, if_pos rfl, if_neg (fun h' => h h'.1)]

/-! ## The positions -/

theorem byteSort_spec (k : List Byte) : IsPermList (byteSort k) ∧ (byteSort k).length = k.length ∧
    (byteSort k).Pairwise (KeyOrder fun a => (k.getD a 0).toNat) := by
  unfold byteSort
  apply mergeSort_keyOrder
  intro a _ b _
  by_cases h : (k.getD b 0).toNat < (k.getD a 0).toNat
  · rw [decide_eq_true h, decide_eq_false (by omega)]; rfl
  · rw [decide_eq_false h, decide_eq_true (by omega)]; rfl

theorem invList_invList {l : List Nat} (h : IsPermList l) : invList (invList l) = l := by
  have hi := invList_isPerm h
  apply List.ext_getElem (by rw [invList_length, invList_length])
  intro i h1 h2
  have hx : l[i] < l.length := h.1 _ (List.getElem_mem h2)
  have e1 : (invList (invList l))[i]? = some ((invList l).idxOf i) :=
    invList_getElem? (by rw [invList_length]; exact h2)
  have e2 : (invList l)[l[i]]'(by rw [invList_length]; exact hx) = i := by
    have := invList_getElem? hx
    rw [List.getElem?_eq_getElem (by rw [invList_length]; exact hx), Option.some.injEq] at this
    rw [this, idxOf_getElem' h.2 h2]
  have e3 := idxOf_getElem' hi.2 (i := l[i]) (by rw [invList_length]; exact hx)
  rw [e2] at e3
  rw [List.getElem?_eq_getElem h1, Option.some.injEq] at e1
  rw [e1, e3]

theorem keyOrder_inv {n : Nat} {key : Nat → Nat} {p : List Nat} (hp : IsPermList p) (hl : p.length = n)
    (ho : p.Pairwise (KeyOrder key)) : invList p = (List.range n).map (rank n key) := by
  have hr := rankList_perm n key
  have hq := invList_isPerm hr
  have hlen : ((List.range n).map (rank n key)).length = n := by simp
  have hrk : ∀ j (hj : j < n), ∃ a, a < n ∧ (invList ((List.range n).map (rank n key)))[j]? = some a ∧ rank n key a = j := by
    intro j hj
    have : j ∈ (Finset.range n).image (rank n key) := by rw [rank_image]; exact Finset.mem_range.mpr hj
    obtain ⟨a, ha, rfl⟩ := Finset.mem_image.mp this
    rw [Finset.mem_range] at ha
    refine ⟨a, ha, ?_, rfl⟩
    rw [invList_getElem? (by rw [hlen]; exact hj)]
    have h2 := idxOf_getElem' hr.2 (i := a) (by rw [hlen]; exact ha)
    simpa using h2
  have e : p = invList ((List.range n).map (rank n key)) := by
    apply keyOrder_unique hp hq (by rw [invList_length, hlen, hl]) ho
    rw [List.pairwise_iff_getElem]
    intro a b ha hb hab
    rw [invList_length, hlen] at ha hb
    obtain ⟨x, hx, ex, rx⟩ := hrk a ha
    obtain ⟨y, hy, ey, ry⟩ := hrk b hb
    rw [List.getElem?_eq_getElem (by rw [invList_length, hlen]; exact ha)] at ex
    rw [List.getElem?_eq_getElem (by rw [invList_length, hlen]; exact hb)] at ey
    rw [Option.some.injEq] at ex ey
    rw [ex, ey]
    exact (rank_lt_iff key hx hy).mp (by omega)
  rw [e]
  exact invList_invList hr

theorem bytePerm_ok (k : List Byte) : bytePerm k =
    .ok ⟨(List.range k.length).map (rank k.length fun a => (k.getD a 0).toNat)⟩ := by
  obtain ⟨h1, h2, h3⟩ := byteSort_spec k
  rw [bytePerm, Perm.inverse_eq (p := ⟨byteSort k⟩) h1, keyOrder_inv h1 h2 h3]

theorem map_range_eq {n : Nat} {g : Nat → Nat} {p : List (BitVec 32)} :
    (List.range n).map g = p.map BitVec.toNat ↔ p.length = n ∧ ∀ i, i < n → (p.getD i 0).toNat = g i := by
  constructor
  · intro h
    have hl : p.length = n := by simpa using (congrArg List.length h).symm
    refine ⟨hl, fun i hi => ?_⟩
    have := congrArg (fun l => l[i]?) h
    rw [← hl] at hi
    have hi' : i < n := by omega
    simp [hi, hi'] at this
    simp [List.getD_eq_getElem?_getD, hi, this]
  · rintro ⟨hl, h⟩
    apply List.ext_getElem (by simp [hl])
    intro i h1 h2
    have hi : i < n := by simpa using h1
    have := h i hi
    have hi' : i < p.length := by omega
    simp [List.getD_eq_getElem?_getD, hi'] at this
    simp [this]

theorem checkPos_eq (k : List Byte) (p : List (BitVec 32)) : checkPos k p =
    if p.length = k.length ∧ ∀ i, i < k.length → (p.getD i 0).toNat = rank k.length (fun a => (k.getD a 0).toNat) i
    then .ok () else .error .throw := by
  unfold checkPos
  rw [bytePerm_ok, ok_bind]
  by_cases h : (List.range k.length).map (rank k.length fun a => (k.getD a 0).toNat) = p.map BitVec.toNat
  · rw [if_pos (map_range_eq.mp h), bne_of_eq h]
    rfl
  · rw [if_neg (fun h' => h (map_range_eq.mpr h')), bne_of_ne h]
    rfl

end Radix
end SecJoin
