import Verif.AggTree.Plain
/-!
# Lemmas on the plaintext aggregation tree
-/
namespace SecJoin
namespace Agg

/-! ## Sizes -/

theorem halves_length (k s : Nat) : (halves k s).length = k := by
  induction k generalizing s with
  | zero => rfl
  | succ k ih => simp [halves, ih]

theorem halves_get (k j : Nat) (h : j ≤ k) : (2 ^ k :: halves k (2 ^ k))[j]? = some (2 ^ (k - j)) := by
  induction k generalizing j with
  | zero =>
    have : j = 0 := by omega
    subst this; rfl
  | succ k ih =>
    cases j with
    | zero => rfl
    | succ j =>
      simp only [halves, List.getElem?_cons_succ]
      have : 2 ^ (k + 1) / 2 = 2 ^ k := by rw [Nat.pow_succ]; omega
      rw [this, ih j (by omega)]
      congr 2
      omega

theorem sizes_ok {n : Nat} (hn : 2 ≤ n) : ∃ k R r c,
    computeTreeSizes n = .ok ⟨n, 2 ^ k + R, r, c, 2 * R :: 2 ^ k :: halves k (2 ^ k)⟩ ∧ 1 ≤ R ∧ R ≤ 2 ^ k ∧
      n ≤ 2 ^ k + R ∧ (c = true ∧ r = 0 ∧ R = 2 ^ k ∨ c = false ∧ r = R ∧ R < 2 ^ k ∧ R % 16 = 0 ∧ 16 ≤ 2 ^ k) ∧
      (2 ^ k + R = 2 ^ Nat.clog 2 n ∨ (2 ^ k + R) % 16 = 0 ∧ 2 ^ k + R < n + 16) := by
  obtain ⟨N, hN⟩ : ∃ N, N = min (2 ^ Nat.clog 2 n) (divCeil n 16 * 16) := ⟨_, rfl⟩
  have h1 : n ≤ 2 ^ Nat.clog 2 n := Nat.le_pow_clog (by omega) n
  have h2 : n ≤ divCeil n 16 * 16 := by unfold divCeil; omega
  have hnN : n ≤ N := by omega
  obtain ⟨L, hL⟩ : ∃ L, L = Nat.log 2 N := ⟨_, rfl⟩
  have l1 : 2 ^ L ≤ N := by rw [hL]; exact Nat.pow_log_le_self 2 (by omega)
  have l2 : N < 2 ^ (L + 1) := by rw [hL]; exact Nat.lt_pow_succ_log_self (by omega) N
  have l0 : L ≠ 0 := by
    intro h; rw [h] at l2; omega
  have last : ∀ k, (2 ^ k :: halves k (2 ^ k)).getLast? = some 1 := by
    intro k
    rw [List.getLast?_eq_getElem?]
    have : (2 ^ k :: halves k (2 ^ k)).length - 1 = k := by simp [halves_length]
    rw [this, halves_get k k (Nat.le_refl _)]
    simp
  have last' : ∀ k a, (a :: 2 ^ k :: halves k (2 ^ k)).getLast? = some 1 := by
    intro k a
    rw [List.getLast?_cons_cons]; exact last k
  by_cases hc : N = 2 ^ L
  · -- complete
    have hclog : Nat.clog 2 N = L := by rw [hc]; exact Nat.clog_pow 2 L (by omega)
    obtain ⟨k, rfl⟩ : ∃ k, L = k + 1 := ⟨L - 1, by omega⟩
    have e2 : 2 ^ (k + 1) = 2 ^ k + 2 ^ k := by rw [Nat.pow_succ]; omega
    have e3 : (2 ^ k + 2 ^ k) / 2 = 2 ^ k := by omega
    have hp : 1 ≤ 2 ^ k := Nat.one_le_two_pow
    have e4 : 2 * 2 ^ k = 2 ^ k + 2 ^ k := by omega
    refine ⟨k, 2 ^ k, 0, true, ?_, hp, Nat.le_refl _, by omega, Or.inl ⟨rfl, rfl, rfl⟩, ?_⟩
    · unfold computeTreeSizes
      rw [if_neg (by omega)]
      simp only [← hN, ← hL, hclog]
      have hr : N - 2 ^ (k + 1) = 0 := by omega
      simp only [hr, beq_self_eq_true, if_true]
      have z0 : ∀ a b : Nat, (if (0 : Nat) ≠ 0 then a else b) = b := fun a b => if_neg (by omega)
      simp only [z0, hc, e2, e3, Nat.add_sub_cancel, e4, last']
      simp
    · rw [← e2, ← hc, hN]
      unfold divCeil at h2 ⊢
      omega
  · have hlt : 2 ^ L < N := by omega
    have hclog : Nat.clog 2 N = L + 1 := by
      apply Nat.le_antisymm
      · exact Nat.clog_le_of_le_pow (by omega)
      · have : L < Nat.clog 2 N := by
          rw [Nat.lt_clog_iff_pow_lt (by omega)]; exact hlt
        exact this
    have hN16 : N = divCeil n 16 * 16 := by
      rcases Nat.le_total (2 ^ Nat.clog 2 n) (divCeil n 16 * 16) with h | h
      · exfalso
        rw [Nat.min_eq_left h] at hN
        have : L = Nat.clog 2 n := by rw [hL, hN]; exact Nat.log_pow (by omega) _
        rw [← this] at hN
        omega
      · rw [hN, Nat.min_eq_right h]
    have hL4 : 4 ≤ L := by
      by_contra hcon
      have : 2 ^ (L + 1) ≤ 2 ^ 4 := Nat.pow_le_pow_right (by omega) (by omega)
      have : (2 : Nat) ^ 4 = 16 := rfl
      unfold divCeil at hN16
      omega
    obtain ⟨j, rfl⟩ : ∃ j, L = j + 4 := ⟨L - 4, by omega⟩
    have e16 : 2 ^ (j + 4) = 2 ^ j * 16 := by rw [Nat.pow_add]
    have hp : 1 ≤ 2 ^ j := Nat.one_le_two_pow
    have hr0 : N - 2 ^ (j + 4) ≠ 0 := by omega
    have e2 : 2 ^ (j + 4 + 1) = 2 ^ (j + 4) + 2 ^ (j + 4) := by rw [Nat.pow_succ]; omega
    have eN : 2 ^ (j + 4) + (N - 2 ^ (j + 4)) = N := by omega
    refine ⟨j + 4, N - 2 ^ (j + 4), N - 2 ^ (j + 4), false, ?_, by omega, by omega, by omega,
      Or.inr ⟨rfl, rfl, by omega, by omega, by omega⟩, Or.inr ?_⟩
    · unfold computeTreeSizes
      rw [if_neg (by omega)]
      simp only [← hN, ← hL, hclog]
      have hb : (j + 4 == j + 4 + 1) = false := by simp
      simp only [hb, if_pos hr0, Bool.false_eq_true, if_false]
      rw [if_neg (by omega)]
      have : j + 4 + 1 - 1 = j + 4 := by omega
      rw [this, if_neg (by rw [last']; simp), if_neg (by omega), eN]
    · rw [eN]
      unfold divCeil at hN16
      omega

/-! ## Reading and writing -/

theorem loadLoop_ok {s0 r : Nat} {leaf : Nat → Res (V × Bool)} {g : Nat → V × Bool} (hrs : r ≤ s0) :
    ∀ (k i : Nat) (l0 l1 : List (V × Bool)), (∀ j, i ≤ j → j < i + k → leaf j = .ok (g j)) → s0 ≤ l0.length →
    (s0 < i + k → i + k ≤ r + l1.length) →
    ∃ m0 m1, loadLoop s0 r leaf k i l0 l1 = .ok (m0, m1) ∧ m0.length = l0.length ∧ m1.length = l1.length ∧
      (∀ w, m0[w]? = if i ≤ w ∧ w < i + k ∧ w < s0 then some (g w) else l0[w]?) ∧
      (∀ w, m1[w]? = if i ≤ w + r ∧ w + r < i + k ∧ s0 ≤ w + r then some (g (w + r)) else l1[w]?) := by
  intro k
  induction k with
  | zero =>
    intro i l0 l1 _ _ _
    refine ⟨l0, l1, rfl, rfl, rfl, fun w => ?_, fun w => ?_⟩
    · rw [if_neg (by omega)]
    · rw [if_neg (by omega)]
  | succ k ih =>
    intro i l0 l1 hl h0 h1
    rw [loadLoop]
    by_cases hi : i < s0
    · rw [if_pos hi, decide_eq_false (by omega), throwIf_false, ok_bind, hl i (by omega) (by omega), ok_bind]
      obtain ⟨m0, m1, e, e0, e1, e2, e3⟩ := ih (i + 1) (l0.set i (g i)) l1 (fun j a b => hl j (by omega) (by omega))
        (by rw [List.length_set]; exact h0) (by omega)
      refine ⟨m0, m1, e, by rw [e0, List.length_set], e1, fun w => ?_, fun w => ?_⟩
      · rw [e2, List.getElem?_set]
        by_cases hw : i = w
        · subst hw
          rw [if_neg (by omega), if_pos rfl, if_pos (by omega), if_pos (by omega)]
        · rw [if_neg hw]
          by_cases hc : i ≤ w ∧ w < i + (k + 1) ∧ w < s0
          · rw [if_pos hc, if_pos (by omega)]
          · rw [if_neg hc, if_neg (by omega)]
      · rw [e3]
        by_cases hc : i ≤ w + r ∧ w + r < i + (k + 1) ∧ s0 ≤ w + r
        · rw [if_pos hc, if_pos (by omega)]
        · rw [if_neg hc, if_neg (by omega)]
    · have hlen := h1 (by omega)
      rw [if_neg hi, decide_eq_false (by omega), throwIf_false, ok_bind, hl i (by omega) (by omega), ok_bind]
      obtain ⟨m0, m1, e, e0, e1, e2, e3⟩ := ih (i + 1) l0 (l1.set (i - r) (g i)) (fun j a b => hl j (by omega) (by omega))
        h0 (by rw [List.length_set]; omega)
      refine ⟨m0, m1, e, e0, by rw [e1, List.length_set], fun w => ?_, fun w => ?_⟩
      · rw [e2]
        by_cases hc : i ≤ w ∧ w < i + (k + 1) ∧ w < s0
        · omega
        · rw [if_neg hc, if_neg (by omega)]
      · rw [e3, List.getElem?_set]
        by_cases hw : i - r = w
        · have hwr : w + r = i := by omega
          rw [hwr, if_neg (by omega), if_pos hw, if_pos (by omega), if_pos (by omega)]
        · rw [if_neg hw]
          by_cases hc : i ≤ w + r ∧ w + r < i + (k + 1) ∧ s0 ≤ w + r
          · rw [if_pos hc, if_pos (by omega)]
          · rw [if_neg hc, if_neg (by omega)]

theorem upLevel_ok {d : Dir V} {child parent : List (V × Bool)} {g : Nat → V × Bool}
    (hc : ∀ w < child.length, child[w]? = some (g w)) (hp : child.length / 2 ≤ parent.length) :
    ∃ p, upLevel d child parent = .ok p ∧ p.length = parent.length ∧
      ∀ w, p[w]? = if w < child.length / 2 then some (d.up (g (2 * w)) (g (2 * w + 1))) else parent[w]? := by
  have e : mapRes (fun i => do
      let a ← rd child (2 * i)
      let b ← rd child (2 * i + 1)
      .ok (d.up a b)) (List.range (child.length / 2)) =
      .ok ((List.range (child.length / 2)).map fun i => d.up (g (2 * i)) (g (2 * i + 1))) := by
    apply mapRes_ok
    intro i hi
    rw [List.mem_range] at hi
    unfold rd
    rw [hc _ (by omega), hc _ (by omega)]
    rfl
  refine ⟨_, by unfold upLevel; rw [e, ok_bind, if_pos (by simpa using hp)], ?_, ?_⟩
  · simp; omega
  · intro w
    rw [List.getElem?_append]
    simp only [List.length_map, List.length_range]
    by_cases hw : w < child.length / 2
    · rw [if_pos hw, if_pos hw]
      simp [hw]
    · rw [if_neg hw, if_neg hw, List.getElem?_drop]
      congr 1
      omega

theorem flatMap_pair_get {α : Type} (f : Nat → α × α) (k w : Nat) :
    ((((List.range k).map f).flatMap fun p => [p.1, p.2]))[w]? =
      if w < 2 * k then some (if w % 2 = 0 then (f (w / 2)).1 else (f (w / 2)).2) else none := by
  induction k with
  | zero => simp
  | succ k ih =>
    rw [List.range_succ, List.map_append, List.flatMap_append, List.getElem?_append]
    have hlen : ∀ k, (((List.range k).map f).flatMap fun p => [p.1, p.2]).length = 2 * k := by
      intro k
      induction k with
      | zero => rfl
      | succ k ih => rw [List.range_succ, List.map_append, List.flatMap_append, List.length_append, ih]; simp; omega
    rw [hlen, ih]
    by_cases h1 : w < 2 * k
    · have h9 : w < 2 * (k + 1) := by omega
      rw [if_pos h1, if_pos h1, if_pos h9]
    · rw [if_neg h1]
      by_cases h2 : w = 2 * k
      · subst h2
        rw [if_pos (by omega)]
        simp
      · by_cases h3 : w = 2 * k + 1
        · subst h3
          have h5 : (2 * k + 1) / 2 = k := by omega
          rw [if_pos (by omega), h5]
          simp
        · rw [if_neg (by omega), List.getElem?_eq_none]
          simp; omega

theorem downLevel_ok {d : Dir V} {zero : V} {parent : List V} {child : List (V × Bool)} {g : Nat → V × Bool}
    {v : Nat → V} (hc : ∀ w < child.length, child[w]? = some (g w)) (he : child.length % 2 = 0)
    (hp : ∀ w < child.length / 2, parent[w]? = some (v w)) :
    ∃ q, downLevel d zero parent child = .ok q ∧ q.length = child.length ∧
      ∀ w < child.length, q[w]? = some (if w % 2 = 0 then (d.down (v (w / 2)) (g (2 * (w / 2))) (g (2 * (w / 2) + 1))).1
        else (d.down (v (w / 2)) (g (2 * (w / 2))) (g (2 * (w / 2) + 1))).2) := by
  have e : mapRes (fun i => do
      let x ← rd parent i
      let a ← rd child (2 * i)
      let b ← rd child (2 * i + 1)
      .ok (d.down x a b)) (List.range (child.length / 2)) =
      .ok ((List.range (child.length / 2)).map fun i => d.down (v i) (g (2 * i)) (g (2 * i + 1))) := by
    apply mapRes_ok
    intro i hi
    rw [List.mem_range] at hi
    unfold rd
    rw [hc _ (by omega), hc _ (by omega), hp _ hi]
    rfl
  have key := flatMap_pair_get (fun i => d.down (v i) (g (2 * i)) (g (2 * i + 1))) (child.length / 2)
  refine ⟨_, by unfold downLevel; rw [e, ok_bind], ?_, ?_⟩
  · rw [he, List.replicate_zero, List.append_nil]
    apply Nat.le_antisymm
    · rw [← List.getElem?_eq_none_iff, key, if_neg (by omega)]
    · by_contra hcon
      have hlt : child.length - 1 < child.length := by omega
      have h1 := key (child.length - 1)
      rw [if_pos (by omega), List.getElem?_eq_none (by omega)] at h1
      exact absurd h1 (by simp)
  · intro w hw
    rw [he, List.replicate_zero, List.append_nil, key, if_pos (by omega)]

/-! ## The shape of the tree -/

/-- The first leaf below node `w` of level `j`. -/
def st (R : Nat) : Nat → Nat → Nat
  | 0, w => w
  | j + 1, w => w * 2 ^ j + min (w * 2 ^ j) R

/-- The number of nodes of level `j`. -/
def sz (R k : Nat) : Nat → Nat
  | 0 => 2 * R
  | j + 1 => 2 ^ (k - j)

theorem st_child (R k : Nat) {j i : Nat} (hj : j ≤ k) (hi : i < sz R k j / 2) :
    st R (j + 1) i = st R j (2 * i) ∧ st R (j + 1) (i + 1) = st R j (2 * i + 2) := by
  cases j with
  | zero =>
    simp only [sz] at hi
    simp only [st, Nat.pow_zero, Nat.mul_one]
    omega
  | succ j =>
    simp only [st]
    have e1 : i * 2 ^ (j + 1) = 2 * i * 2 ^ j := by rw [Nat.pow_succ]; rw [Nat.mul_comm 2 i, Nat.mul_assoc, Nat.mul_comm 2]
    have e2 : (i + 1) * 2 ^ (j + 1) = (2 * i + 2) * 2 ^ j := by
      have : 2 * i + 2 = (i + 1) * 2 := by omega
      rw [Nat.pow_succ, this, Nat.mul_assoc, Nat.mul_comm 2]
    rw [e1, e2]
    exact ⟨rfl, rfl⟩

theorem st_lt (R j w : Nat) : st R j w < st R j (w + 1) := by
  cases j with
  | zero => simp [st]
  | succ j =>
    simp only [st]
    have : (w + 1) * 2 ^ j = w * 2 ^ j + 2 ^ j := by rw [Nat.add_mul, Nat.one_mul]
    have : 1 ≤ 2 ^ j := Nat.one_le_two_pow
    omega

theorem st_le {R k j w : Nat} (hR : R ≤ 2 ^ k) (hj : j ≤ k + 1) (hw : w < sz R k j) :
    st R j (w + 1) ≤ 2 ^ k + R := by
  cases j with
  | zero => simp only [st, sz] at *; omega
  | succ j =>
    simp only [st, sz] at *
    have h1 : (w + 1) * 2 ^ j ≤ 2 ^ (k - j) * 2 ^ j := Nat.mul_le_mul_right _ (by omega)
    have h2 : 2 ^ (k - j) * 2 ^ j = 2 ^ k := by rw [← Nat.pow_add]; congr 1; omega
    omega

theorem sz_even {R k j : Nat} (hj : j ≤ k) : sz R k j % 2 = 0 := by
  cases j with
  | zero => simp [sz]
  | succ j =>
    simp only [sz]
    have : k - j = k - j - 1 + 1 := by omega
    rw [this, Nat.pow_succ]
    omega

theorem sz_half {R k j : Nat} (hR : R ≤ 2 ^ k) (hj : j ≤ k) : sz R k j / 2 ≤ sz R k (j + 1) ∧
    (1 ≤ j → sz R k j / 2 = sz R k (j + 1)) := by
  cases j with
  | zero => simp only [sz, Nat.sub_zero]; omega
  | succ j =>
    simp only [sz]
    have : k - j = k - (j + 1) + 1 := by omega
    rw [this, Nat.pow_succ]
    omega

/-! ## The invariants -/

/-- What the functions of one half achieve: `G l r` is the node over the leaves `l .. r-1`, `D l r v` says that `v` is a
correct downstream value for it. -/
structure Works (N : Nat) (d : Dir V) (G : Nat → Nat → V × Bool) (D : Nat → Nat → V → Prop) : Prop where
  up : ∀ l m r, l < m → m < r → r ≤ N → d.up (G l m) (G m r) = G l r
  down : ∀ l m r v, l < m → m < r → r ≤ N → D l r v →
    D l m (d.down v (G l m) (G m r)).1 ∧ D m r (d.down v (G l m) (G m r)).2
  root : ∀ v, D 0 N v

/-- Level `j` of the upstream pass is correct. -/
def UpOk (R k : Nat) (G : Nat → Nat → V × Bool) (j : Nat) (l : List (V × Bool)) : Prop :=
  l.length = sz R k j ∧ ∀ w < sz R k j, l[w]? = some (G (st R j w) (st R j (w + 1)))

/-- Level `j` of the downstream pass is correct. -/
def DownOk (R k : Nat) (D : Nat → Nat → V → Prop) (j : Nat) (l : List V) : Prop :=
  l.length = sz R k j ∧ ∀ w < sz R k j, ∃ v, l[w]? = some v ∧ D (st R j w) (st R j (w + 1)) v

theorem node_ok {R k j i : Nat} {d : Dir V} {G : Nat → Nat → V × Bool} {D : Nat → Nat → V → Prop} (hR : R ≤ 2 ^ k)
    (hw : Works (2 ^ k + R) d G D) (hj : j ≤ k) (hi : i < sz R k j / 2) :
    d.up (G (st R j (2 * i)) (st R j (2 * i + 1))) (G (st R j (2 * i + 1)) (st R j (2 * i + 1 + 1))) =
      G (st R (j + 1) i) (st R (j + 1) (i + 1)) := by
  obtain ⟨e1, e2⟩ := st_child R k hj hi
  rw [e1, e2]
  exact hw.up _ _ _ (st_lt R j _) (st_lt R j _) (st_le hR (by omega) (by have := sz_even (R := R) hj; omega))

theorem upFrom_ok {R k : Nat} {d : Dir V} {G : Nat → Nat → V × Bool} {D : Nat → Nat → V → Prop} (hR : R ≤ 2 ^ k)
    (hw : Works (2 ^ k + R) d G D) : ∀ (ps : List (List (V × Bool))) (j : Nat) (child : List (V × Bool)),
    UpOk R k G j child → j + ps.length ≤ k + 1 →
    (∀ t p, ps[t]? = some p → p.length = sz R k (j + t + 1) ∧
      ∀ w, sz R k (j + t) / 2 ≤ w → w < sz R k (j + t + 1) →
        p[w]? = some (G (st R (j + t + 1) w) (st R (j + t + 1) (w + 1)))) →
    ∃ ls, upFrom d child ps = .ok ls ∧ ls.length = ps.length + 1 ∧
      ∀ t l, ls[t]? = some l → UpOk R k G (j + t) l := by
  intro ps
  induction ps with
  | nil =>
    intro j child hc _ _
    refine ⟨[child], rfl, rfl, fun t l h => ?_⟩
    cases t with
    | zero => simp at h; subst h; exact hc
    | succ t => simp at h
  | cons p ps ih =>
    intro j child hc hl hp
    simp only [List.length_cons] at hl
    obtain ⟨pl, pg⟩ := hp 0 p (by simp)
    obtain ⟨q, e, ql, qg⟩ := upLevel_ok (d := d) (parent := p) (g := fun w => G (st R j w) (st R j (w + 1)))
      (by rw [hc.1]; exact hc.2) (by rw [hc.1, pl]; exact (sz_half hR (by omega)).1)
    have hq : UpOk R k G (j + 1) q := by
      refine ⟨by rw [ql, pl], fun w hw' => ?_⟩
      rw [qg, hc.1]
      by_cases hlt : w < sz R k j / 2
      · rw [if_pos hlt, node_ok hR hw (by omega) hlt]
      · rw [if_neg hlt]
        exact pg w (by simpa using hlt) hw'
    obtain ⟨ls, e', l', g'⟩ := ih (j + 1) q hq (by omega) (fun t p' h => by
      have := hp (t + 1) p' (by simpa using h)
      rw [show j + (t + 1) = j + 1 + t by omega] at this
      exact this)
    refine ⟨child :: ls, by rw [upFrom, e, ok_bind, e', ok_bind], by simp [l'], fun t l h => ?_⟩
    cases t with
    | zero => simp at h; subst h; exact hc
    | succ t =>
      have := g' t l (by simpa using h)
      rw [show j + (t + 1) = j + 1 + t by omega]
      exact this

theorem downFrom_ok {R k : Nat} {d : Dir V} {G : Nat → Nat → V × Bool} {D : Nat → Nat → V → Prop} (hR : R ≤ 2 ^ k)
    (hw : Works (2 ^ k + R) d G D) (zero : V) : ∀ (ls : List (List (V × Bool))) (j : Nat),
    ls ≠ [] → j + ls.length = k + 2 → (∀ t l, ls[t]? = some l → UpOk R k G (j + t) l) →
    ∃ ds, downFrom d zero ls = .ok ds ∧ ds.length = ls.length ∧ ∀ t l, ds[t]? = some l → DownOk R k D (j + t) l := by
  intro ls
  induction ls with
  | nil => intro j h; exact absurd rfl h
  | cons c ps ih =>
    intro j _ hl hu
    have hc : UpOk R k G j c := hu 0 c (by simp)
    cases ps with
    | nil =>
      simp only [List.length_cons, List.length_nil] at hl
      have hj : j = k + 1 := by omega
      refine ⟨[c.map (·.1)], rfl, rfl, fun t l h => ?_⟩
      cases t with
      | zero =>
        simp at h; subst h
        refine ⟨by rw [List.length_map]; exact hc.1, fun w hw' => ?_⟩
        have h1 : sz R k (j + 0) = 1 := by rw [hj]; simp [sz]
        have hw0 : w = 0 := by omega
        subst hw0
        refine ⟨_, by rw [List.getElem?_map, hc.2 0 (by simpa using hw')]; rfl, ?_⟩
        have e0 : st R (j + 0) 0 = 0 := by rw [hj]; simp [st]
        have e1 : st R (j + 0) (0 + 1) = 2 ^ k + R := by
          have := Nat.min_eq_right hR
          rw [hj]; simp [st, this]
        rw [e0, e1]
        exact hw.root _
      | succ t => simp at h
    | cons p ps =>
      simp only [List.length_cons] at hl
      obtain ⟨ds, e, dl, dg⟩ := ih (j + 1) (by simp) (by simp only [List.length_cons]; omega) (fun t l h => by
        have := hu (t + 1) l (by simpa using h)
        rw [show j + (t + 1) = j + 1 + t by omega] at this
        exact this)
      have dpos : 0 < ds.length := by rw [dl]; simp
      obtain ⟨pl, pg⟩ := dg 0 ds[0] (by simp [dpos])
      rw [Nat.add_zero] at pl pg
      have hj : j ≤ k := by omega
      have hhalf := sz_half (j := j) hR hj
      -- the downstream values of the parents
      have hv : ∀ w, ∃ v, w < sz R k (j + 1) → ds[0][w]? = some v ∧ D (st R (j + 1) w) (st R (j + 1) (w + 1)) v := by
        intro w
        by_cases hw' : w < sz R k (j + 1)
        · obtain ⟨v, h⟩ := pg w hw'; exact ⟨v, fun _ => h⟩
        · exact ⟨zero, fun h => absurd h hw'⟩
      choose v hv using hv
      have hev := sz_even (R := R) hj
      obtain ⟨q, e2, ql, qg⟩ := downLevel_ok (d := d) (zero := zero) (parent := ds[0]) (child := c)
        (g := fun w => G (st R j w) (st R j (w + 1))) (v := v) (by rw [hc.1]; exact hc.2)
        (by rw [hc.1]; exact hev) (by rw [hc.1]; exact fun w h => (hv w (by omega)).1)
      refine ⟨q :: ds, ?_, by simp [dl], fun t l h => ?_⟩
      · rw [downFrom, e, ok_bind, rd_ok dpos, ok_bind, e2, ok_bind]
      cases t with
      | zero =>
        simp at h; subst h
        refine ⟨by rw [ql]; exact hc.1, fun w hw' => ⟨_, qg w (by rw [hc.1]; exact hw'), ?_⟩⟩
        have hw' : w < sz R k j := hw'
        have hi : w / 2 < sz R k j / 2 := by omega
        obtain ⟨c1, c2⟩ := st_child R k hj hi
        have hD := (hv (w / 2) (by omega)).2
        rw [c1, c2] at hD
        have := hw.down _ _ _ _ (st_lt R j (2 * (w / 2))) (st_lt R j (2 * (w / 2) + 1))
          (st_le hR (by omega) (by omega)) hD
        show D (st R j w) (st R j (w + 1)) _
        generalize hX : d.down (v (w / 2)) (G (st R j (2 * (w / 2))) (st R j (2 * (w / 2) + 1)))
          (G (st R j (2 * (w / 2) + 1)) (st R j (2 * (w / 2) + 1 + 1))) = X at this ⊢
        clear hX
        by_cases hpar : w % 2 = 0
        · have ew : w = 2 * (w / 2) := by omega
          rw [if_pos hpar]
          rw [← ew] at this
          exact this.1
        · have ew : w = 2 * (w / 2) + 1 := by omega
          rw [if_neg hpar]
          rw [← ew] at this
          exact this.2
      | succ t =>
        have := dg t l (by simpa using h)
        rw [show j + (t + 1) = j + 1 + t by omega]
        exact this

/-! ## One half -/

theorem buildHalf_ok {n k R r : Nat} {c : Bool} {d : Dir V} {zero : V} {leaf : Nat → Res (V × Bool)}
    {G : Nat → Nat → V × Bool} {D : Nat → Nat → V → Prop} (hR1 : 1 ≤ R) (hR : R ≤ 2 ^ k)
    (hc : c = true ∧ r = 0 ∧ R = 2 ^ k ∨ c = false ∧ r = R ∧ R < 2 ^ k ∧ R % 16 = 0 ∧ 16 ≤ 2 ^ k)
    (hw : Works (2 ^ k + R) d G D) (hl : ∀ i < 2 ^ k + R, leaf i = .ok (G i (i + 1))) :
    ∃ t, buildHalf ⟨n, 2 ^ k + R, r, c, 2 * R :: 2 ^ k :: halves k (2 ^ k)⟩ d zero leaf = .ok t ∧
      t.1.length = k + 2 ∧ t.2.length = k + 2 ∧ (∀ j l, t.1[j]? = some l → UpOk R k G j l) ∧
      (∀ j l, t.2[j]? = some l → DownOk R k D j l) := by
  obtain ⟨m0, m1, e, e0, e1, e2, e3⟩ := loadLoop_ok (s0 := 2 * R) (r := r) (leaf := leaf)
    (g := fun i => G i (i + 1)) (by omega) (2 ^ k + R) 0 (List.replicate (2 * R) (zero, false))
    (List.replicate (2 ^ k) (zero, false)) (fun j _ h => hl j (by omega)) (by simp) (by simp; omega)
  rw [List.length_replicate] at e0 e1
  have hu0 : UpOk R k G 0 m0 := by
    refine ⟨e0, fun w hw' => ?_⟩
    simp only [sz] at hw'
    rw [e2, if_pos (by omega)]
    rfl
  obtain ⟨ls, e4, ll, lg⟩ := upFrom_ok hR hw
    (m1 :: (halves k (2 ^ k)).map fun s => List.replicate s (zero, false)) 0 m0 hu0
    (by simp [halves_length]) (by
      intro t p hp
      cases t with
      | zero =>
        simp at hp; subst hp
        refine ⟨by rw [e1]; simp [sz], fun w h1 h2 => ?_⟩
        simp only [sz, Nat.sub_zero, Nat.zero_add] at h1 h2
        rw [e3, if_pos (by omega)]
        simp only [st, Nat.zero_add, Nat.pow_zero, Nat.mul_one]
        have : w + r = w + min w R := by omega
        have h5 : w + r + 1 = w + 1 + min (w + 1) R := by omega
        rw [← this, ← h5]
      | succ t =>
        rw [List.getElem?_cons_succ, List.getElem?_map, Option.map_eq_some_iff] at hp
        obtain ⟨s, hs, rfl⟩ := hp
        have ht : t < k := by
          have := (List.getElem?_eq_some_iff.mp hs).1
          rwa [halves_length] at this
        have hs' := halves_get k (t + 1) (by omega)
        rw [List.getElem?_cons_succ, hs] at hs'
        simp only [Option.some.injEq] at hs'
        refine ⟨by rw [List.length_replicate, hs']; simp [sz], fun w h1 h2 => ?_⟩
        have := (sz_half (R := R) (j := 0 + (t + 1)) hR (by omega)).2 (by omega)
        omega)
  have hls : ls ≠ [] := by intro h; rw [h] at ll; simp at ll
  have hll : ls.length = k + 2 := by rw [ll]; simp [halves_length]
  obtain ⟨ds, e5, dl, dg⟩ := downFrom_ok hR hw zero ls 0 hls (by omega) lg
  refine ⟨(ls, ds), ?_, hll, by rw [dl, hll], fun j l h => ?_, fun j l h => ?_⟩
  · unfold buildHalf
    simp only [List.map_cons, rd, List.getElem?_cons_zero, List.getElem?_cons_succ, ok_bind, List.headD_cons, e,
      List.drop_succ_cons, List.drop_zero, e4, e5]
  · have := lg j l h; rwa [Nat.zero_add] at this
  · have := dg j l h; rwa [Nat.zero_add] at this

theorem leafOf_ok {n k R r : Nat} {c : Bool} {G : Nat → Nat → V × Bool} {D : Nat → Nat → V → Prop} (hR1 : 1 ≤ R)
    (hR : R ≤ 2 ^ k)
    (hc : c = true ∧ r = 0 ∧ R = 2 ^ k ∨ c = false ∧ r = R ∧ R < 2 ^ k ∧ R % 16 = 0 ∧ 16 ≤ 2 ^ k)
    {t : List (List (V × Bool)) × List (List V)} (l1 : t.1.length = k + 2) (l2 : t.2.length = k + 2)
    (h1 : ∀ j l, t.1[j]? = some l → UpOk R k G j l) (h2 : ∀ j l, t.2[j]? = some l → DownOk R k D j l) {i : Nat}
    (hi : i < 2 ^ k + R) :
    ∃ v, leafOf ⟨n, 2 ^ k + R, r, c, 2 * R :: 2 ^ k :: halves k (2 ^ k)⟩ t i = .ok (v, (G i (i + 1)).2) ∧
      D i (i + 1) v := by
  have key : ∀ q w, q < k + 2 → w < sz R k q → st R q w = i → st R q (w + 1) = i + 1 →
      ∃ v, (do
        let u ← rd t.1 q
        let a ← rd u w
        let dl ← rd t.2 q
        let v ← rd dl w
        .ok (v, a.2) : Res (V × Bool)) = .ok (v, (G i (i + 1)).2) ∧ D i (i + 1) v := by
    intro q w hq hw e1 e2
    have g1 : t.1[q]? = some t.1[q] := List.getElem?_eq_getElem (by omega)
    have g2 : t.2[q]? = some t.2[q] := List.getElem?_eq_getElem (by omega)
    have u := (h1 q _ g1).2 w hw
    obtain ⟨v, dv, hD⟩ := (h2 q _ g2).2 w hw
    rw [e1, e2] at u hD
    refine ⟨v, ?_, hD⟩
    simp only [rd, g1, g2, ok_bind, u, dv]
  unfold leafOf
  by_cases hs : i < 2 * R
  · have h3 : i < (2 * R :: 2 ^ k :: halves k (2 ^ k)).headD 0 := hs
    rw [if_pos h3, if_pos h3]
    exact key 0 i (by omega) hs rfl rfl
  · have h3 : ¬ i < (2 * R :: 2 ^ k :: halves k (2 ^ k)).headD 0 := hs
    rw [if_neg h3, if_neg h3]
    refine key 1 (i - r) (by omega) (by simp only [sz, Nat.sub_zero]; omega) ?_ ?_
    · simp only [st, Nat.pow_zero, Nat.mul_one]; omega
    · simp only [st, Nat.pow_zero, Nat.mul_one]; omega

/-! ## Prefix aggregates -/

/-- All control bits of the leaves `l .. r-1` are set. -/
def allB (b : Nat → Bool) (l : Nat) : Nat → Bool
  | 0 => true
  | k + 1 => allB b l k && b (l + k)

theorem allB_add (b : Nat → Bool) (l k j : Nat) : allB b l (k + j) = (allB b l k && allB b (l + k) j) := by
  induction j with
  | zero => simp [allB]
  | succ j ih => rw [← Nat.add_assoc, allB, ih, allB, Bool.and_assoc, Nat.add_assoc]

theorem allB_false {b : Nat → Bool} {l k i : Nat} (h1 : l ≤ i) (h2 : i < l + k) (h : b i = false) :
    allB b l k = false := by
  induction k with
  | zero => omega
  | succ k ih =>
    rw [allB]
    by_cases hi : i = l + k
    · rw [← hi, h, Bool.and_false]
    · rw [ih (by omega), Bool.false_and]

/-- The aggregate at leaf `l + k` of the leaves from `l` on. -/
def aggP (op : V → V → V) (x : Nat → V) (b : Nat → Bool) (l : Nat) : Nat → V
  | 0 => x l
  | k + 1 => if b (l + k + 1) then op (aggP op x b l k) (x (l + k + 1)) else x (l + k + 1)

theorem aggP_split {op : V → V → V} (ha : ∀ a b c, op (op a b) c = op a (op b c)) (x : Nat → V) (b : Nat → Bool)
    (l k j : Nat) : aggP op x b l (k + 1 + j) =
      if allB b (l + k + 1) (j + 1) then op (aggP op x b l k) (aggP op x b (l + k + 1) j)
      else aggP op x b (l + k + 1) j := by
  induction j with
  | zero => simp [aggP, allB]
  | succ j ih =>
    have e : k + 1 + (j + 1) = (k + 1 + j) + 1 := by omega
    have e2 : l + (k + 1 + j) + 1 = l + k + 1 + j + 1 := by omega
    have e3 : allB b (l + k + 1) (j + 1 + 1) = (allB b (l + k + 1) (j + 1) && b (l + k + 1 + j + 1)) := rfl
    rw [e, aggP, ih, aggP, e3, e2]
    cases h1 : b (l + k + 1 + j + 1) with
    | false => simp
    | true =>
      cases h2 : allB b (l + k + 1) (j + 1) with
      | false => simp
      | true => simp [ha]

theorem prefix_works {op : V → V → V} (ha : ∀ a b c, op (op a b) c = op a (op b c)) (x : Nat → V) (b : Nat → Bool)
    (h0 : b 0 = false) (N : Nat) : Works N (prefixDir op) (fun l r => (aggP op x b l (r - l - 1), allB b l (r - l)))
      (fun l _ v => 0 < l → v = aggP op x b 0 (l - 1)) where
  up l m r h1 h2 _ := by
    obtain ⟨k, rfl⟩ : ∃ k, m = l + k + 1 := ⟨m - l - 1, by omega⟩
    obtain ⟨j, rfl⟩ : ∃ j, r = l + k + 1 + j + 1 := ⟨r - (l + k + 1) - 1, by omega⟩
    have e1 : l + k + 1 + j + 1 - (l + k + 1) = j + 1 := by omega
    have e2 : l + k + 1 - l = k + 1 := by omega
    have e3 : l + k + 1 + j + 1 - l = k + 1 + j + 1 := by omega
    simp only [prefixDir, e1, e2, e3, Nat.add_sub_cancel]
    rw [aggP_split ha, show k + 1 + j + 1 = (k + 1) + (j + 1) by omega, allB_add b l (k + 1) (j + 1), ← Nat.add_assoc l k 1,
      Bool.and_comm]
  down l m r v h1 h2 _ hv := by
    refine ⟨hv, fun _ => ?_⟩
    simp only [prefixDir]
    by_cases hl : l = 0
    · subst hl
      rw [allB_false (i := 0) (by omega) (by omega) h0]
      simp
    · rw [hv (by omega)]
      obtain ⟨a, rfl⟩ : ∃ a, l = a + 1 := ⟨l - 1, by omega⟩
      obtain ⟨k, rfl⟩ : ∃ k, m = a + 1 + k + 1 := ⟨m - (a + 1) - 1, by omega⟩
      have e1 : a + 1 + k + 1 - (a + 1) = k + 1 := by omega
      simp only [e1, Nat.add_sub_cancel]
      rw [aggP_split ha, Nat.zero_add]
  root v h := by omega

/-! ## Suffix aggregates -/

/-- The aggregate at leaf `l` of the leaves up to `l + k`. -/
def aggS (op : V → V → V) (x : Nat → V) (b : Nat → Bool) : Nat → Nat → V
  | 0, l => x l
  | k + 1, l => if b l then op (x l) (aggS op x b k (l + 1)) else x l

theorem allB_left (b : Nat → Bool) (l k : Nat) : allB b l (k + 1) = (b l && allB b (l + 1) k) := by
  rw [Nat.add_comm k 1, allB_add]
  simp [allB]

theorem aggS_split {op : V → V → V} (ha : ∀ a b c, op (op a b) c = op a (op b c)) (x : Nat → V) (b : Nat → Bool)
    (k j l : Nat) : aggS op x b (k + 1 + j) l =
      if allB b l (k + 1) then op (aggS op x b k l) (aggS op x b j (l + k + 1)) else aggS op x b k l := by
  induction k generalizing l with
  | zero =>
    rw [show 0 + 1 + j = j + 1 by omega]
    simp [aggS, allB]
  | succ k ih =>
    have e : k + 1 + 1 + j = (k + 1 + j) + 1 := by omega
    rw [e, aggS, ih, aggS, allB_left b l (k + 1)]
    rw [show l + 1 + k + 1 = l + (k + 1) + 1 by omega]
    cases h1 : b l with
    | false => simp
    | true =>
      cases h2 : allB b (l + 1) (k + 1) with
      | false => simp
      | true => simp [ha]

theorem suffix_works {op : V → V → V} (ha : ∀ a b c, op (op a b) c = op a (op b c)) (x : Nat → V) (b : Nat → Bool)
    (N : Nat) (h0 : b (N - 1) = false) :
    Works N (suffixDir op) (fun l r => (aggS op x b (r - l - 1) l, allB b l (r - l)))
      (fun _ r v => r < N → v = aggS op x b (N - r - 1) r) where
  up l m r h1 h2 _ := by
    obtain ⟨k, rfl⟩ : ∃ k, m = l + k + 1 := ⟨m - l - 1, by omega⟩
    obtain ⟨j, rfl⟩ : ∃ j, r = l + k + 1 + j + 1 := ⟨r - (l + k + 1) - 1, by omega⟩
    have e1 : l + k + 1 + j + 1 - (l + k + 1) = j + 1 := by omega
    have e2 : l + k + 1 - l = k + 1 := by omega
    have e3 : l + k + 1 + j + 1 - l = k + 1 + j + 1 := by omega
    simp only [suffixDir, e1, e2, e3, Nat.add_sub_cancel]
    rw [aggS_split ha, show k + 1 + j + 1 = (k + 1) + (j + 1) by omega, allB_add b l (k + 1) (j + 1), ← Nat.add_assoc l k 1,
      Bool.and_comm]
  down l m r v h1 h2 h3 hv := by
    refine ⟨fun _ => ?_, hv⟩
    simp only [suffixDir]
    by_cases hl : r = N
    · subst hl
      rw [allB_false (i := r - 1) (by omega) (by omega) h0]
      simp
    · rw [hv (by omega)]
      obtain ⟨k, rfl⟩ : ∃ k, r = m + k + 1 := ⟨r - m - 1, by omega⟩
      obtain ⟨j, rfl⟩ : ∃ j, N = m + k + 1 + j + 1 := ⟨N - (m + k + 1) - 1, by omega⟩
      have e1 : m + k + 1 + j + 1 - m - 1 = k + 1 + j := by omega
      have e2 : m + k + 1 - m = k + 1 := by omega
      have e3 : m + k + 1 + j + 1 - (m + k + 1) - 1 = j := by omega
      simp only [e1, e2, e3, Nat.add_sub_cancel]
      rw [aggS_split ha]
  root v h := by omega

end Agg
end SecJoin
