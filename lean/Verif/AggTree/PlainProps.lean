import Verif.AggTree.PlainLemmas
/-!
# Properties C27 and C28 of the plaintext aggregation tree
-/
namespace SecJoin
namespace Agg

/-! ## Specification -/

/-- The aggregate of a non-empty list. -/
def fold1 (op : V → V → V) : List V → Option V
  | [] => none
  | a :: l => some (l.foldl op a)

/-- Rows `s .. e` of the table form one segment: bit `k` says that row `k` belongs to the segment of row `k - 1`. -/
def IsSegment (c : List Bool) (n s e : Nat) : Prop :=
  s ≤ e ∧ e < n ∧ (s = 0 ∨ c[s]? = some false) ∧ (∀ k, s < k → k ≤ e → c[k]? = some true) ∧
    (e + 1 = n ∨ c[e + 1]? = some false)

/-! ## Lemmas -/

theorem seg_foldl {op : V → V → V} {xs : List V} {s d : Nat} (h : s + d < xs.length) :
    fold1 op ((xs.drop s).take (d + 1)) = some (((xs.drop (s + 1)).take d).foldl op xs[s]) := by
  rw [List.drop_eq_getElem_cons (by omega), List.take_succ_cons]
  rfl

/-- Value and control bit of leaf `i` of the prefix half. -/
def bP (c : List Bool) (n i : Nat) : Bool := if i < n ∧ i ≠ 0 then c.getD i false else false
/-- Control bit of leaf `i` of the suffix half. -/
def bS (c : List Bool) (n i : Nat) : Bool := if i < n ∧ i ≠ n - 1 then c.getD (i + 1) false else false

theorem aggP_seg {op : V → V → V} {xs : List V} {c : List Bool} {zero : V} {s : Nat} (hs : s = 0 ∨ c[s]? = some false) :
    ∀ d, s + d < xs.length → (∀ k, s < k → k ≤ s + d → c[k]? = some true) →
    fold1 op ((xs.drop s).take (d + 1)) =
      some (aggP op (fun i => xs.getD i zero) (bP c xs.length) 0 (s + d)) := by
  intro d
  induction d with
  | zero =>
    intro h1 _
    rw [seg_foldl h1]
    simp only [List.take_zero, List.foldl_nil, Nat.add_zero]
    cases s with
    | zero => simp [aggP, List.getD_eq_getElem?_getD, List.getElem?_eq_getElem (show 0 < xs.length by omega)]
    | succ s =>
      have hb : bP c xs.length (0 + s + 1) = false := by
        unfold bP
        split
        · rcases hs with h | h
          · omega
          · rw [List.getD_eq_getElem?_getD, Nat.zero_add, h]; rfl
        · rfl
      rw [aggP, hb]
      simp [List.getD_eq_getElem?_getD, List.getElem?_eq_getElem (show s + 1 < xs.length by omega)]
  | succ d ih =>
    intro h1 h2
    have := ih (by omega) (fun k a b => h2 k a (by omega))
    rw [seg_foldl (by omega)] at this ⊢
    have hb : bP c xs.length (0 + (s + d) + 1) = true := by
      unfold bP
      rw [if_pos (by omega), List.getD_eq_getElem?_getD, h2 _ (by omega) (by omega)]; rfl
    have e : s + (d + 1) = (s + d) + 1 := by omega
    rw [e, aggP, hb, if_pos rfl, ← Option.some.inj this, List.take_add_one, List.foldl_append, List.getElem?_drop]
    have e2 : s + 1 + d = 0 + (s + d) + 1 := by omega
    rw [e2, List.getElem?_eq_getElem (by omega)]
    simp [List.getD_eq_getElem?_getD, List.getElem?_eq_getElem (show s + d + 1 < xs.length by omega)]

theorem foldl_op {op : V → V → V} (ha : ∀ a b c, op (op a b) c = op a (op b c)) (a b : V) (l : List V) :
    l.foldl op (op a b) = op a (l.foldl op b) := by
  induction l generalizing b with
  | nil => rfl
  | cons x l ih => rw [List.foldl_cons, List.foldl_cons, ha, ih]

theorem aggS_cut {op : V → V → V} (x : Nat → V) (b : Nat → Bool) {k j l : Nat} (h : b (l + k) = false) :
    aggS op x b (k + j) l = aggS op x b k l := by
  induction k generalizing l with
  | zero =>
    cases j with
    | zero => rfl
    | succ j =>
      rw [show 0 + (j + 1) = j + 1 by omega]
      rw [Nat.add_zero] at h
      simp [aggS, h]
  | succ k ih =>
    rw [show k + 1 + j = (k + j) + 1 by omega, aggS, aggS, ih (by rw [← h]; congr 1; omega)]

theorem aggS_seg {op : V → V → V} (ha : ∀ a b c, op (op a b) c = op a (op b c)) {xs : List V} {c : List Bool} {zero : V}
    {e : Nat} (he : e < xs.length) (hs : e + 1 = xs.length ∨ c[e + 1]? = some false) :
    ∀ d i, i + d = e → (∀ k, i < k → k ≤ e → c[k]? = some true) → ∀ N, xs.length ≤ N →
    fold1 op ((xs.drop i).take (d + 1)) =
      some (aggS op (fun i => xs.getD i zero) (bS c xs.length) (N - i - 1) i) := by
  have hbe : bS c xs.length e = false := by
    unfold bS
    split
    · rcases hs with h | h
      · omega
      · rw [List.getD_eq_getElem?_getD, h]; rfl
    · rfl
  intro d
  induction d with
  | zero =>
    intro i hi _ N hN
    have hi : i = e := by omega
    subst hi
    rw [seg_foldl (by omega), show N - i - 1 = 0 + (N - i - 1) by omega, aggS_cut _ _ (by rw [Nat.add_zero]; exact hbe)]
    simp [aggS, List.getD_eq_getElem?_getD, List.getElem?_eq_getElem he]
  | succ d ih =>
    intro i hi hk N hN
    have := ih (i + 1) (by omega) (fun k a b => hk k (by omega) b) N hN
    rw [seg_foldl (by omega)] at this ⊢
    have hb : bS c xs.length i = true := by
      unfold bS
      rw [if_pos (by omega), List.getD_eq_getElem?_getD, hk _ (by omega) (by omega)]; rfl
    have hm : N - i - 1 = (N - (i + 1) - 1) + 1 := by omega
    rw [hm, aggS, hb, if_pos rfl, ← Option.some.inj this, List.drop_eq_getElem_cons (show i + 1 < xs.length by omega),
      List.take_succ_cons, List.foldl_cons, foldl_op ha]
    simp [List.getD_eq_getElem?_getD, List.getElem?_eq_getElem (show i < xs.length by omega)]

theorem prefixLeaf_ok {zero : V} {xs : List V} {c : List Bool} (hc : xs.length ≤ c.length) (i : Nat) :
    prefixLeaf zero xs c i = .ok (xs.getD i zero, bP c xs.length i) := by
  unfold prefixLeaf bP
  by_cases hi : i < xs.length
  · rw [if_pos hi, rd_ok hi, ok_bind]
    by_cases h0 : i = 0
    · subst h0
      rw [if_neg (by omega), if_neg (by omega)]
      simp [List.getD_eq_getElem?_getD, List.getElem?_eq_getElem hi]
    · rw [if_pos h0, if_pos ⟨hi, h0⟩, rd_ok (show i < c.length by omega)]
      simp [List.getD_eq_getElem?_getD, List.getElem?_eq_getElem hi, List.getElem?_eq_getElem (show i < c.length by omega)]
  · rw [if_neg hi, if_neg (by omega)]
    simp [List.getD_eq_getElem?_getD, List.getElem?_eq_none (Nat.le_of_not_lt hi)]

theorem suffixLeaf_ok {zero : V} {xs : List V} {c : List Bool} (hc : xs.length ≤ c.length) (i : Nat) :
    suffixLeaf zero xs c i = .ok (xs.getD i zero, bS c xs.length i) := by
  unfold suffixLeaf bS
  by_cases hi : i < xs.length
  · rw [if_pos hi, rd_ok hi, ok_bind]
    by_cases h0 : i = xs.length - 1
    · rw [if_neg (by omega), if_neg (by omega)]
      simp [List.getD_eq_getElem?_getD, List.getElem?_eq_getElem hi]
    · rw [if_pos h0, if_pos ⟨hi, h0⟩, rd_ok (show i + 1 < c.length by omega)]
      simp [List.getD_eq_getElem?_getD, List.getElem?_eq_getElem hi,
        List.getElem?_eq_getElem (show i + 1 < c.length by omega)]
  · rw [if_neg hi, if_neg (by omega)]
    simp [List.getD_eq_getElem?_getD, List.getElem?_eq_none (Nat.le_of_not_lt hi)]

theorem expPre_ok {op : V → V → V} {zero : V} {xs : List V} {c : List Bool} (hc : xs.length ≤ c.length)
    (h0 : c[0]? = some false) : ∀ k i, i + k = xs.length →
    expPre op (if i = 0 then none else some (aggP op (fun i => xs.getD i zero) (bP c xs.length) 0 (i - 1)))
      (xs.drop i) (c.drop i) =
      .ok ((List.range' i k).map fun j => aggP op (fun i => xs.getD i zero) (bP c xs.length) 0 j) := by
  intro k
  induction k with
  | zero =>
    intro i hi
    rw [List.drop_eq_nil_of_le (by omega)]
    rfl
  | succ k ih =>
    intro i hi
    have hx : i < xs.length := by omega
    rw [List.drop_eq_getElem_cons hx, expPre]
    have := ih (i + 1) (by omega)
    rw [if_neg (by omega), Nat.add_sub_cancel] at this
    have hb : rd (c.drop i) 0 = .ok (c.getD i false) := by
      unfold rd
      rw [List.getElem?_drop, Nat.add_zero, List.getElem?_eq_getElem (by omega)]
      simp [List.getD_eq_getElem?_getD, List.getElem?_eq_getElem (show i < c.length by omega)]
    have hxi : xs.getD i zero = xs[i] := by
      simp [List.getD_eq_getElem?_getD, List.getElem?_eq_getElem hx]
    rw [hb, ok_bind, List.tail_drop]
    cases i with
    | zero =>
      have hc0 : c.getD 0 false = false := by rw [List.getD_eq_getElem?_getD, h0]; rfl
      rw [hc0]
      simp only [ok_bind]
      have e0 : aggP op (fun i => xs.getD i zero) (bP c xs.length) 0 0 = xs[0] := hxi
      rw [← e0, this, ok_bind, List.range'_succ, List.map_cons]
    | succ i =>
      have e0 : aggP op (fun i => xs.getD i zero) (bP c xs.length) 0 (i + 1) =
          if c.getD (i + 1) false then op (aggP op (fun i => xs.getD i zero) (bP c xs.length) 0 i) xs[i + 1] else xs[i + 1] := by
        rw [aggP, Nat.zero_add, hxi]
        have : bP c xs.length (i + 1) = c.getD (i + 1) false := by unfold bP; rw [if_pos (by omega)]
        rw [this]
      rw [if_neg (by omega), Nat.add_sub_cancel]
      rw [e0] at this
      cases hcb : c.getD (i + 1) false with
      | true =>
        rw [hcb, if_pos rfl] at this
        simp only [ok_bind]
        rw [this, ok_bind, List.range'_succ, List.map_cons, e0, hcb, if_pos rfl]
      | false =>
        rw [hcb, if_neg (by decide)] at this
        simp only [ok_bind]
        rw [this, ok_bind, List.range'_succ, List.map_cons, e0, hcb, if_neg (by decide)]

theorem expSuf_ok {op : V → V → V} {zero : V} {xs : List V} {c : List Bool} (hc : xs.length ≤ c.length) :
    ∀ k i, i + k = xs.length → expSuf op (xs.drop i) (c.drop (i + 1)) =
      .ok ((List.range' i k).map fun j => aggS op (fun i => xs.getD i zero) (bS c xs.length) (xs.length - j - 1) j) := by
  intro k
  induction k with
  | zero =>
    intro i hi
    rw [List.drop_eq_nil_of_le (by omega)]
    rfl
  | succ k ih =>
    intro i hi
    have hx : i < xs.length := by omega
    have hxi : xs.getD i zero = xs[i] := by
      simp [List.getD_eq_getElem?_getD, List.getElem?_eq_getElem hx]
    cases k with
    | zero =>
      rw [List.drop_eq_getElem_cons hx, List.drop_eq_nil_of_le (by omega), expSuf, List.range'_succ]
      rw [List.map_cons, show xs.length - i - 1 = 0 by omega, aggS, hxi]
      rfl
    | succ k =>
      have := ih (i + 1) (by omega)
      rw [List.drop_eq_getElem_cons hx, List.drop_eq_getElem_cons (show i + 1 < xs.length by omega), expSuf,
        ← List.drop_eq_getElem_cons (show i + 1 < xs.length by omega), List.tail_drop, this, ok_bind]
      · have hb : rd (c.drop (i + 1)) 0 = .ok (c.getD (i + 1) false) := by
          unfold rd
          rw [List.getElem?_drop, Nat.add_zero, List.getElem?_eq_getElem (by omega)]
          simp [List.getD_eq_getElem?_getD, List.getElem?_eq_getElem (show i + 1 < c.length by omega)]
        rw [hb, ok_bind, List.range'_succ (s := i), List.range'_succ (s := i + 1), List.map_cons, List.map_cons]
        simp only [rd, List.getElem?_cons_zero, ok_bind]
        have hm : xs.length - i - 1 = (xs.length - (i + 1) - 1) + 1 := by omega
        have hbb : bS c xs.length i = c.getD (i + 1) false := by unfold bS; rw [if_pos (by omega)]
        rw [hm, aggS, hxi, hbb]
        rfl
      · intro h; simp at h; omega

theorem leafOf_prefix {op : V → V → V} (ha : ∀ a b c, op (op a b) c = op a (op b c)) (zero : V) {xs : List V}
    {c : List Bool} (hc : xs.length ≤ c.length) {p : Params} (hp : computeTreeSizes xs.length = .ok p)
    (hn : 2 ≤ xs.length) : ∃ t, buildHalf p (prefixDir op) zero (prefixLeaf zero xs c) = .ok t ∧
      ∀ i < xs.length, ∃ v, leafOf p t i = .ok (v, bP c xs.length i) ∧
        (if bP c xs.length i then op v (xs.getD i zero) else xs.getD i zero) =
          aggP op (fun i => xs.getD i zero) (bP c xs.length) 0 i := by
  obtain ⟨k, R, r, cb, e, h1, h2, h3, h4, _⟩ := sizes_ok hn
  rw [e, Except.ok.injEq] at hp
  subst hp
  have hb0 : bP c xs.length 0 = false := by unfold bP; rw [if_neg (by omega)]
  have hw := prefix_works ha (fun i => xs.getD i zero) (bP c xs.length) hb0 (2 ^ k + R)
  obtain ⟨t, e1, l1, l2, g1, g2⟩ := buildHalf_ok (n := xs.length) (zero := zero) h1 h2 h4 hw
    (leaf := prefixLeaf zero xs c) (fun i _ => by
      rw [prefixLeaf_ok hc]
      have e1 : i + 1 - i - 1 = 0 := by omega
      have e2 : i + 1 - i = 1 := by omega
      rw [e1, e2]
      simp [aggP, allB])
  refine ⟨t, e1, fun i hi => ?_⟩
  obtain ⟨v, e2, hv⟩ := leafOf_ok (n := xs.length) (i := i) h1 h2 h4 l1 l2 g1 g2 (by omega)
  have e3 : i + 1 - i = 1 := by omega
  simp only [e3, allB, Nat.add_zero, Bool.true_and] at e2
  refine ⟨v, e2, ?_⟩
  cases i with
  | zero => rw [hb0, if_neg (by decide)]; rfl
  | succ i =>
    rw [hv (by omega), Nat.add_sub_cancel]
    rw [aggP, Nat.zero_add]

theorem leafOf_suffix {op : V → V → V} (ha : ∀ a b c, op (op a b) c = op a (op b c)) (zero : V) {xs : List V}
    {c : List Bool} (hc : xs.length ≤ c.length) {p : Params} (hp : computeTreeSizes xs.length = .ok p)
    (hn : 2 ≤ xs.length) : ∃ t, buildHalf p (suffixDir op) zero (suffixLeaf zero xs c) = .ok t ∧
      ∀ i < xs.length, ∃ v, leafOf p t i = .ok (v, bS c xs.length i) ∧
        (bS c xs.length i = true → v = aggS op (fun i => xs.getD i zero) (bS c xs.length) (xs.length - (i + 1) - 1) (i + 1)) := by
  obtain ⟨k, R, r, cb, e, h1, h2, h3, h4, _⟩ := sizes_ok hn
  rw [e, Except.ok.injEq] at hp
  subst hp
  have hb0 : bS c xs.length (2 ^ k + R - 1) = false := by unfold bS; rw [if_neg (by omega)]
  have hw := suffix_works ha (fun i => xs.getD i zero) (bS c xs.length) (2 ^ k + R) hb0
  obtain ⟨t, e1, l1, l2, g1, g2⟩ := buildHalf_ok (n := xs.length) (zero := zero) h1 h2 h4 hw
    (leaf := suffixLeaf zero xs c) (fun i _ => by
      rw [suffixLeaf_ok hc]
      have e1 : i + 1 - i - 1 = 0 := by omega
      have e2 : i + 1 - i = 1 := by omega
      rw [e1, e2]
      simp [aggS, allB])
  refine ⟨t, e1, fun i hi => ?_⟩
  obtain ⟨v, e2, hv⟩ := leafOf_ok (n := xs.length) (i := i) h1 h2 h4 l1 l2 g1 g2 (by omega)
  have e3 : i + 1 - i = 1 := by omega
  simp only [e3, allB, Nat.add_zero, Bool.true_and] at e2
  refine ⟨v, e2, fun hb => ?_⟩
  have hi1 : i + 1 < xs.length := by
    unfold bS at hb
    by_contra hcon
    rw [if_neg (by omega)] at hb
    exact absurd hb (by decide)
  rw [hv (by omega)]
  have hbn : bS c xs.length (i + 1 + (xs.length - (i + 1) - 1)) = false := by unfold bS; rw [if_neg (by omega)]
  have := aggS_cut (op := op) (fun i => xs.getD i zero) (bS c xs.length) (j := 2 ^ k + R - xs.length) hbn
  rw [← this]
  congr 1
  omega

theorem aggS_succ {op : V → V → V} {zero : V} {xs : List V} {c : List Bool} {i : Nat} {v : V}
    (hv : bS c xs.length i = true → v = aggS op (fun i => xs.getD i zero) (bS c xs.length) (xs.length - (i + 1) - 1) (i + 1))
    (hi : i < xs.length) : (if bS c xs.length i then op (xs.getD i zero) v else xs.getD i zero) =
      aggS op (fun i => xs.getD i zero) (bS c xs.length) (xs.length - i - 1) i := by
  by_cases h1 : i + 1 = xs.length
  · rw [show xs.length - i - 1 = 0 by omega]
    have : bS c xs.length i = false := by unfold bS; rw [if_neg (by omega)]
    rw [this, if_neg (by decide)]
    rfl
  · rw [show xs.length - i - 1 = (xs.length - (i + 1) - 1) + 1 by omega, aggS]
    cases hb : bS c xs.length i with
    | false => rfl
    | true => rw [hv hb]

/-- The rows `i`, `s ≤ i ≤ e`, of a segment have the folds of the rows up to, from and around row `i`. -/
theorem segment_folds {op : V → V → V} (ha : ∀ a b c, op (op a b) c = op a (op b c)) (zero : V) {xs : List V}
    {c : List Bool} {s e i : Nat} (hseg : IsSegment c xs.length s e) (h1 : s ≤ i) (h2 : i ≤ e) :
    fold1 op ((xs.drop s).take (i + 1 - s)) = some (aggP op (fun i => xs.getD i zero) (bP c xs.length) 0 i) ∧
    fold1 op ((xs.drop i).take (e + 1 - i)) =
      some (aggS op (fun i => xs.getD i zero) (bS c xs.length) (xs.length - i - 1) i) ∧
    fold1 op ((xs.drop s).take (e + 1 - s)) = some (if bS c xs.length i then
      op (aggP op (fun i => xs.getD i zero) (bP c xs.length) 0 i)
        (aggS op (fun i => xs.getD i zero) (bS c xs.length) (xs.length - (i + 1) - 1) (i + 1))
      else aggP op (fun i => xs.getD i zero) (bP c xs.length) 0 i) := by
  obtain ⟨a1, a2, a3, a4, a5⟩ := hseg
  have p1 := aggP_seg (op := op) (xs := xs) (zero := zero) a3 (i - s) (by omega) (fun k h h' => a4 k h (by omega))
  rw [show i - s + 1 = i + 1 - s by omega, show s + (i - s) = i by omega] at p1
  have p2 := aggS_seg ha (xs := xs) (c := c) (zero := zero) a2 a5 (e - i) i (by omega) (fun k h h' => a4 k (by omega) h')
    xs.length (Nat.le_refl _)
  rw [show e - i + 1 = e + 1 - i by omega] at p2
  refine ⟨p1, p2, ?_⟩
  by_cases hie : i = e
  · subst hie
    have : bS c xs.length i = false := by
      unfold bS
      split
      · rcases a5 with h | h
        · omega
        · rw [List.getD_eq_getElem?_getD, h]; rfl
      · rfl
    rw [this, if_neg (by decide), p1]
  · have hb : bS c xs.length i = true := by
      unfold bS
      rw [if_pos (by omega), List.getD_eq_getElem?_getD, a4 _ (by omega) (by omega)]; rfl
    rw [if_pos hb]
    have p3 := aggS_seg ha (xs := xs) (c := c) (zero := zero) a2 a5 (e - (i + 1)) (i + 1) (by omega)
      (fun k h h' => a4 k (by omega) h') xs.length (Nat.le_refl _)
    rw [seg_foldl (by omega), Option.some.injEq] at p3
    have q1 : i + 1 - s = (i - s) + 1 := by omega
    rw [q1, seg_foldl (by omega), Option.some.injEq] at p1
    have q2 : e + 1 - s = (e - s) + 1 := by omega
    rw [q2, seg_foldl (by omega), Option.some.injEq, ← p1, ← p3, ← foldl_op ha]
    have q3 : (xs.drop (s + 1)).take (e - s) = (xs.drop (s + 1)).take (i - s) ++
        xs[i + 1] :: (xs.drop (i + 1 + 1)).take (e - (i + 1)) := by
      have q4 : e - s = (i - s) + ((e - (i + 1)) + 1) := by omega
      rw [q4, List.take_add, List.drop_drop, show s + 1 + (i - s) = i + 1 by omega,
        List.drop_eq_getElem_cons (show i + 1 < xs.length by omega), List.take_succ_cons]
    rw [q3, List.foldl_append, List.foldl_cons]

/-! ## C28 -/

/-- C28: for two or more rows the levels end in a single root, every level below the root consists of pairs, every
level above level 1 has exactly half the nodes of the level below it, and level 1 has one node for each pair of level
0. The other nodes of level 1 are leaves: together with level 0 these are `n16` leaves, and `n16` is the number of rows
rounded up to a power of two or a multiple of 16. -/
theorem C28_sizes {n : Nat} (hn : 2 ≤ n) : ∃ p, computeTreeSizes n = .ok p ∧ n ≤ p.n16 ∧
    (p.n16 = 2 ^ Nat.clog 2 n ∨ p.n16 % 16 = 0 ∧ p.n16 < n + 16) ∧
    ∃ s0 s1 up, p.sizes = s0 :: s1 :: up ∧ s0 % 2 = 0 ∧ 0 < s0 ∧ s0 / 2 ≤ s1 ∧ s0 + (s1 - s0 / 2) = p.n16 ∧
      (s0 / 2 < s1 → p.r = s0 / 2) ∧ (s1 :: up).getLast? = some 1 ∧
      ∀ j a b, (s1 :: up)[j]? = some a → (s1 :: up)[j + 1]? = some b → a = 2 * b := by
  obtain ⟨k, R, r, c, e, h1, h2, h3, h4, h5⟩ := sizes_ok hn
  refine ⟨_, e, h3, h5, 2 * R, 2 ^ k, halves k (2 ^ k), rfl, by omega, by omega, by omega, ?_, ?_, ?_, ?_⟩
  · show 2 * R + (2 ^ k - 2 * R / 2) = 2 ^ k + R
    omega
  · intro h
    show r = 2 * R / 2
    omega
  · rw [List.getLast?_eq_getElem?]
    have : (2 ^ k :: halves k (2 ^ k)).length - 1 = k := by simp [halves_length]
    rw [this, halves_get k k (Nat.le_refl _)]
    simp
  · intro j a b ha hb
    have hlt := (List.getElem?_eq_some_iff.mp hb).1
    rw [List.length_cons, halves_length] at hlt
    rw [halves_get k j (by omega), Option.some.injEq] at ha
    rw [halves_get k (j + 1) (by omega), Option.some.injEq] at hb
    rw [← ha, ← hb, show k - j = k - (j + 1) + 1 by omega, Nat.pow_succ]
    omega

example : (computeTreeSizes 37).toOption.map (·.sizes) = some [32, 32, 16, 8, 4, 2, 1] := by
  unfold computeTreeSizes
  decide +kernel

/-- Where `loadLeaves` and `leaves` put row `i`. -/
def place (p : Params) (i : Nat) : Nat × Nat :=
  if i < p.sizes.headD 0 then (0, i) else (1, i - p.r)

/-- C28: every leaf has a place of its own in level 0 or among the nodes of level 1 without children. -/
theorem C28_places {n : Nat} (hn : 2 ≤ n) : ∃ p, computeTreeSizes n = .ok p ∧
    (∀ i j, i < p.n16 → j < p.n16 → place p i = place p j → i = j) ∧
    (∀ i < p.n16, ∃ s, p.sizes[(place p i).1]? = some s ∧ (place p i).2 < s ∧
      ((place p i).1 = 1 → p.sizes.headD 0 / 2 ≤ (place p i).2)) := by
  obtain ⟨k, R, r, c, e, h1, h2, h3, h4, h5⟩ := sizes_ok hn
  refine ⟨_, e, ?_, ?_⟩
  · intro i j hi hj h
    simp only [place, List.headD_cons] at h hi hj
    by_cases h6 : i < 2 * R <;> by_cases h7 : j < 2 * R <;> simp [h6, h7] at h <;> omega
  · intro i hi
    have hp : ∀ p : Params, p.sizes = 2 * R :: 2 ^ k :: halves k (2 ^ k) →
        place p i = if i < 2 * R then (0, i) else (1, i - p.r) := by
      intro p h
      unfold place
      rw [h]
      rfl
    rw [hp _ rfl]
    have hi : i < 2 ^ k + R := hi
    by_cases h6 : i < 2 * R
    · rw [if_pos h6]
      exact ⟨2 * R, rfl, by omega, by simp⟩
    · rw [if_neg h6]
      exact ⟨2 ^ k, rfl, by show i - r < 2 ^ k; omega, fun _ => by show 2 * R / 2 ≤ i - r; omega⟩

/-- C28: a single row is not supported: the code writes past the end of the list of level sizes. -/
theorem C28_one_row : computeTreeSizes 1 = .error .ub := by
  unfold computeTreeSizes
  decide +kernel

/-! ## C27 -/

/-- C27: every row lies in a segment, and in only one. -/
theorem C27_segments {c : List Bool} {n i : Nat} (hc : n ≤ c.length) (hi : i < n) :
    ∃ s e, IsSegment c n s e ∧ s ≤ i ∧ i ≤ e ∧
      ∀ s' e', IsSegment c n s' e' → s' ≤ i → i ≤ e' → s' = s ∧ e' = e := by
  have hstart : ∀ i, i < n → ∃ s ≤ i, (s = 0 ∨ c[s]? = some false) ∧ ∀ k, s < k → k ≤ i → c[k]? = some true := by
    intro i
    induction i with
    | zero => exact fun _ => ⟨0, Nat.le_refl _, Or.inl rfl, fun k a b => by omega⟩
    | succ i ih =>
      intro hi
      cases h : c[i + 1]? with
      | none => rw [List.getElem?_eq_none_iff] at h; omega
      | some b =>
        cases b with
        | false => exact ⟨i + 1, Nat.le_refl _, Or.inr h, fun k a b => by omega⟩
        | true =>
          obtain ⟨s, h1, h2, h3⟩ := ih (by omega)
          refine ⟨s, by omega, h2, fun k a b => ?_⟩
          by_cases hk : k = i + 1
          · rw [hk]; exact h
          · exact h3 k a (by omega)
  have hend : ∀ d i, i + d + 1 = n → ∃ e, i ≤ e ∧ e < n ∧ (e + 1 = n ∨ c[e + 1]? = some false) ∧
      ∀ k, i < k → k ≤ e → c[k]? = some true := by
    intro d
    induction d with
    | zero => exact fun i h => ⟨i, Nat.le_refl _, by omega, Or.inl (by omega), fun k a b => by omega⟩
    | succ d ih =>
      intro i h
      cases hb : c[i + 1]? with
      | none => rw [List.getElem?_eq_none_iff] at hb; omega
      | some b =>
        cases b with
        | false => exact ⟨i, Nat.le_refl _, by omega, Or.inr hb, fun k a b => by omega⟩
        | true =>
          obtain ⟨e, h1, h2, h3, h4⟩ := ih (i + 1) (by omega)
          refine ⟨e, by omega, h2, h3, fun k a b => ?_⟩
          by_cases hk : k = i + 1
          · rw [hk]; exact hb
          · exact h4 k (by omega) b
  obtain ⟨s, s1, s2, s3⟩ := hstart i hi
  obtain ⟨e, e1, e2, e3, e4⟩ := hend (n - 1 - i) i (by omega)
  refine ⟨s, e, ⟨by omega, e2, s2, fun k a b => ?_, e3⟩, s1, e1, ?_⟩
  · by_cases hk : k ≤ i
    · exact s3 k a hk
    · exact e4 k (by omega) b
  · rintro s' e' ⟨a1, a2, a3, a4, a5⟩ b1 b2
    constructor
    · rcases Nat.lt_trichotomy s' s with h | h | h
      · have := a4 s h (by omega)
        rcases s2 with h' | h'
        · omega
        · rw [h'] at this; simp at this
      · exact h
      · have := s3 s' h b1
        rcases a3 with h' | h'
        · omega
        · rw [h'] at this; simp at this
    · rcases Nat.lt_trichotomy e' e with h | h | h
      · have := e4 (e' + 1) (by omega) (by omega)
        rcases a5 with h' | h'
        · omega
        · rw [h'] at this; simp at this
      · exact h
      · have := a4 (e + 1) (by omega) (by omega)
        rcases e3 with h' | h'
        · omega
        · rw [h'] at this; simp at this

/-- C27: for an associative operation the plaintext tree returns at every row the aggregate of the rows of its segment
up to the row, from the row on, and of the whole segment; the built-in self check does not throw. -/
theorem C27_plain [DecidableEq V] {op : V → V → V} (ha : ∀ a b c, op (op a b) c = op a (op b c)) (zero : V)
    {xs : List V} {c : List Bool} (hn : 2 ≤ xs.length) (hc : xs.length ≤ c.length) (h0 : c[0]? = some false) :
    ∃ res, pTree op zero xs c = .ok res ∧ res.length = xs.length ∧
      ∀ s e i, IsSegment c xs.length s e → s ≤ i → i ≤ e → ∃ p q f, res[i]? = some (p, q, f) ∧
        fold1 op ((xs.drop s).take (i + 1 - s)) = some p ∧
        fold1 op ((xs.drop i).take (e + 1 - i)) = some q ∧
        fold1 op ((xs.drop s).take (e + 1 - s)) = some f := by
  obtain ⟨pp, e⟩ : ∃ pp, computeTreeSizes xs.length = .ok pp := by
    obtain ⟨k, R, r, cb, e, -⟩ := sizes_ok hn
    exact ⟨_, e⟩
  obtain ⟨t1, b1, g1⟩ := leafOf_prefix ha zero hc e hn
  obtain ⟨t2, b2, g2⟩ := leafOf_suffix ha zero hc e hn
  have p1 := expPre_ok (op := op) (zero := zero) hc h0 xs.length 0 (by omega)
  rw [if_pos rfl, List.drop_zero, List.drop_zero] at p1
  have p2 := expSuf_ok (op := op) (zero := zero) hc xs.length 0 (by omega)
  rw [List.drop_zero, Nat.zero_add, List.drop_one] at p2
  have hres : results pp op xs t1 t2 = .ok ((List.range xs.length).map fun i =>
      (aggP op (fun i => xs.getD i zero) (bP c xs.length) 0 i,
       aggS op (fun i => xs.getD i zero) (bS c xs.length) (xs.length - i - 1) i,
       if bS c xs.length i then
        op (aggP op (fun i => xs.getD i zero) (bP c xs.length) 0 i)
          (aggS op (fun i => xs.getD i zero) (bS c xs.length) (xs.length - (i + 1) - 1) (i + 1))
        else aggP op (fun i => xs.getD i zero) (bP c xs.length) 0 i)) := by
    unfold results
    apply mapRes_ok
    intro i hi
    rw [List.mem_range] at hi
    obtain ⟨v, l1, h1⟩ := g1 i hi
    obtain ⟨w, l2, h2⟩ := g2 i hi
    have hx : rd xs i = .ok (xs.getD i zero) := by
      rw [rd_ok hi]
      simp [List.getD_eq_getElem?_getD, List.getElem?_eq_getElem hi]
    rw [l1, ok_bind, l2, ok_bind, hx, ok_bind]
    simp only
    have h3 := aggS_succ h2 hi
    rw [h3, h1]
    have h4 : (if bP c xs.length i then aggP op (fun i => xs.getD i zero) (bP c xs.length) 0 i else xs.getD i zero) =
        aggP op (fun i => xs.getD i zero) (bP c xs.length) 0 i := by
      cases hb : bP c xs.length i with
      | true => rfl
      | false => rw [hb] at h1; rw [← h1]; rfl
    rw [h4]
    cases hb : bS c xs.length i with
    | false => rfl
    | true => rw [← h2 hb]
  refine ⟨(List.range xs.length).map fun i =>
      (aggP op (fun i => xs.getD i zero) (bP c xs.length) 0 i,
       aggS op (fun i => xs.getD i zero) (bS c xs.length) (xs.length - i - 1) i,
       if bS c xs.length i then
        op (aggP op (fun i => xs.getD i zero) (bP c xs.length) 0 i)
          (aggS op (fun i => xs.getD i zero) (bS c xs.length) (xs.length - (i + 1) - 1) (i + 1))
        else aggP op (fun i => xs.getD i zero) (bP c xs.length) 0 i), ?_, ?_, ?_⟩
  · unfold pTree
    rw [e, ok_bind, b1, ok_bind, b2, ok_bind, p1, ok_bind, p2, ok_bind, hres, ok_bind]
    rw [List.map_map, List.map_map, ← List.range_eq_range']
    rw [decide_eq_false (by rw [ne_eq, Decidable.not_not]; rfl), throwIf_false, ok_bind,
      decide_eq_false (by rw [ne_eq, Decidable.not_not]; rfl), throwIf_false, ok_bind]
  · simp
  · intro s e' i hseg h1 h2
    have hi : i < xs.length := by have := hseg.2.1; omega
    obtain ⟨f1, f2, f3⟩ := segment_folds ha zero hseg h1 h2
    exact ⟨_, _, _, by rw [List.getElem?_map, List.getElem?_range hi]; rfl, f1, f2, f3⟩

example : ([3, 1, 4, 1, 5] : List Nat).length ≤ [false, true, true, false, true].length ∧
    pTree (· + ·) 0 [3, 1, 4, 1, 5] [false, true, true, false, true] =
      .ok [(3, 8, 8), (4, 5, 8), (8, 4, 8), (1, 6, 6), (6, 5, 6)] := by decide +kernel

example : IsSegment [false, true, true, false, true] 5 0 2 := by
  refine ⟨by omega, by omega, Or.inl rfl, fun k h1 h2 => ?_, Or.inr rfl⟩
  have : k = 1 ∨ k = 2 := by omega
  rcases this with rfl | rfl <;> rfl

/-- C27: a first control bit that is set makes the self check read the entry before the first one. -/
theorem C27_first_bit_ub [DecidableEq V] {op : V → V → V} (ha : ∀ a b c, op (op a b) c = op a (op b c)) (zero : V)
    {xs : List V} {c : List Bool} (hn : 2 ≤ xs.length) (hc : xs.length ≤ c.length) (h0 : c[0]? = some true) :
    pTree op zero xs c = .error .ub := by
  obtain ⟨pp, e⟩ : ∃ pp, computeTreeSizes xs.length = .ok pp := by
    obtain ⟨k, R, r, cb, e, -⟩ := sizes_ok hn
    exact ⟨_, e⟩
  obtain ⟨t1, b1, g1⟩ := leafOf_prefix ha zero hc e hn
  obtain ⟨t2, b2, g2⟩ := leafOf_suffix ha zero hc e hn
  unfold pTree
  rw [e, ok_bind, b1, ok_bind, b2, ok_bind]
  have hx : expPre op none xs c = .error .ub := by
    cases xs with
    | nil => simp at hn
    | cons x xs =>
      rw [expPre, show rd c 0 = .ok true by unfold rd; rw [h0], ok_bind]
      rfl
  rw [hx, err_bind]

end Agg
end SecJoin
