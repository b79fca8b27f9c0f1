import Verif.Prf.LowMCLemmas
import Mathlib.Algebra.Field.ZMod
/-!
# Gaussian elimination as in LowMC: rank and inverse
-/
namespace SecJoin
namespace LowMC

/-! ## Row operations on lists -/

theorem getD_set {l : List (BitVec n)} {i : Nat} (hi : i < l.length) (x : BitVec n) (j : Nat) :
    (l.set i x).getD j 0 = if j = i then x else l.getD j 0 := by
  simp only [List.getD_eq_getElem?_getD]
  by_cases h : j = i
  · subst h; simp [hi]
  · rw [List.getElem?_set_ne (fun h' => h h'.symm), if_neg h]

theorem rd_getD {l : List (BitVec n)} {i : Nat} (hi : i < l.length) : rd l i = .ok (l.getD i 0) := by
  rw [rd_ok hi, List.getD_eq_getElem?_getD, List.getElem?_eq_getElem hi]; rfl

theorem xorRow_ok {mat : Mtx n} {i j : Nat} (hi : i < mat.length) (hj : j < mat.length) :
    xorRow mat i j = .ok (mat.set i (mat.getD i 0 ^^^ mat.getD j 0)) := by
  unfold xorRow
  rw [rd_getD hi, ok_bind, rd_getD hj, ok_bind, wr_ok hi]

theorem swapRows_ok {mat : Mtx n} {i j : Nat} (hi : i < mat.length) (hj : j < mat.length) :
    ∃ mat', swapRows mat i j = .ok mat' ∧ mat'.length = mat.length ∧
      ∀ q, mat'.getD q 0 = if q = j then mat.getD i 0 else if q = i then mat.getD j 0 else mat.getD q 0 := by
  unfold swapRows
  rw [rd_getD hi, ok_bind, rd_getD hj, ok_bind, wr_ok hi, ok_bind, wr_ok (by simpa using hj)]
  refine ⟨_, rfl, by simp, fun q => ?_⟩
  rw [getD_set (by simpa using hj), getD_set hi]

theorem clear_fold {m row col : Nat} (mat : Mtx n) (hm : mat.length = m) (hr : row < m) (a k : Nat) (hk : a + k ≤ m)
    (hout : row < a ∨ a + k ≤ row) : ∃ mat', (List.range' a k).foldlM (fun (mat : Mtx n) i => do
      let x ← rd mat i
      if x.getLsbD col then xorRow mat i row else .ok mat) mat = .ok mat' ∧ mat'.length = m ∧
    ∀ i, mat'.getD i 0 = if (a ≤ i ∧ i < a + k) ∧ (mat.getD i 0).getLsbD col = true then mat.getD i 0 ^^^ mat.getD row 0
      else mat.getD i 0 := by
  induction k with
  | zero => exact ⟨mat, rfl, hm, fun i => by rw [if_neg (by omega)]⟩
  | succ k ih =>
    obtain ⟨mat', h1, h2, h3⟩ := ih (by omega) (by omega)
    have hrow : mat'.getD row 0 = mat.getD row 0 := by rw [h3, if_neg (by omega)]
    have hik : mat'.getD (a + k) 0 = mat.getD (a + k) 0 := by rw [h3, if_neg (by omega)]
    rw [List.range'_concat, List.foldlM_append, h1, ok_bind]
    simp only [List.foldlM_cons, List.foldlM_nil, Nat.one_mul]
    rw [rd_getD (by omega), ok_bind, hik]
    by_cases hb : (mat.getD (a + k) 0).getLsbD col = true
    · rw [if_pos hb, xorRow_ok (by omega) (by omega), ok_bind]
      refine ⟨_, rfl, by simpa using h2, fun i => ?_⟩
      rw [getD_set (by omega), hik, hrow, h3]
      by_cases hi : i = a + k
      · subst hi; rw [if_pos rfl, if_pos ⟨by omega, hb⟩]
      · have : (a ≤ i ∧ i < a + (k + 1)) ↔ (a ≤ i ∧ i < a + k) := by omega
        rw [if_neg hi]; simp only [this]
    · rw [if_neg hb, ok_bind]
      refine ⟨_, rfl, h2, fun i => ?_⟩
      rw [h3]
      by_cases hi : i = a + k
      · subst hi; rw [if_neg (by omega), if_neg (fun h => hb h.2)]
      · have : (a ≤ i ∧ i < a + (k + 1)) ↔ (a ≤ i ∧ i < a + k) := by omega
        simp only [this]

theorem clear_fold2 {m row col : Nat} (mat inv : Mtx n) (hm : mat.length = m) (hv : inv.length = m) (hr : row < m) (a k : Nat)
    (hk : a + k ≤ m) (hout : row < a ∨ a + k ≤ row) : ∃ mat' inv', (List.range' a k).foldlM (fun (mi : Mtx n × Mtx n) i => do
      let x ← rd mi.1 i
      if x.getLsbD col then do
        let mat ← xorRow mi.1 i row
        let inv ← xorRow mi.2 i row
        .ok (mat, inv)
      else .ok mi) (mat, inv) = .ok (mat', inv') ∧ mat'.length = m ∧ inv'.length = m ∧
    (∀ i, mat'.getD i 0 = if (a ≤ i ∧ i < a + k) ∧ (mat.getD i 0).getLsbD col = true then mat.getD i 0 ^^^ mat.getD row 0
      else mat.getD i 0) ∧
    ∀ i, inv'.getD i 0 = if (a ≤ i ∧ i < a + k) ∧ (mat.getD i 0).getLsbD col = true then inv.getD i 0 ^^^ inv.getD row 0
      else inv.getD i 0 := by
  induction k with
  | zero => exact ⟨mat, inv, rfl, hm, hv, fun i => by rw [if_neg (by omega)], fun i => by rw [if_neg (by omega)]⟩
  | succ k ih =>
    obtain ⟨mat', inv', h1, h2, h2', h3, h3'⟩ := ih (by omega) (by omega)
    have hrow : mat'.getD row 0 = mat.getD row 0 := by rw [h3, if_neg (by omega)]
    have hik : mat'.getD (a + k) 0 = mat.getD (a + k) 0 := by rw [h3, if_neg (by omega)]
    have hrow' : inv'.getD row 0 = inv.getD row 0 := by rw [h3', if_neg (by omega)]
    have hik' : inv'.getD (a + k) 0 = inv.getD (a + k) 0 := by rw [h3', if_neg (by omega)]
    rw [List.range'_concat, List.foldlM_append, h1, ok_bind]
    simp only [List.foldlM_cons, List.foldlM_nil, Nat.one_mul]
    rw [rd_getD (by omega), ok_bind, hik]
    by_cases hb : (mat.getD (a + k) 0).getLsbD col = true
    · rw [if_pos hb, xorRow_ok (by omega) (by omega), ok_bind, xorRow_ok (by omega) (by omega), ok_bind, ok_bind]
      refine ⟨_, _, rfl, by simpa using h2, by simpa using h2', fun i => ?_, fun i => ?_⟩
      · rw [getD_set (by omega), hik, hrow, h3]
        by_cases hi : i = a + k
        · subst hi; rw [if_pos rfl, if_pos ⟨by omega, hb⟩]
        · have : (a ≤ i ∧ i < a + (k + 1)) ↔ (a ≤ i ∧ i < a + k) := by omega
          rw [if_neg hi]; simp only [this]
      · rw [getD_set (by omega), hik', hrow', h3']
        by_cases hi : i = a + k
        · subst hi; rw [if_pos rfl, if_pos ⟨by omega, hb⟩]
        · have : (a ≤ i ∧ i < a + (k + 1)) ↔ (a ≤ i ∧ i < a + k) := by omega
          rw [if_neg hi]; simp only [this]
    · rw [if_neg hb, ok_bind]
      refine ⟨_, _, rfl, h2, h2', fun i => ?_, fun i => ?_⟩
      · rw [h3]
        by_cases hi : i = a + k
        · subst hi; rw [if_neg (by omega), if_neg (fun h => hb h.2)]
        · have : (a ≤ i ∧ i < a + (k + 1)) ↔ (a ≤ i ∧ i < a + k) := by omega
          simp only [this]
      · rw [h3']
        by_cases hi : i = a + k
        · subst hi; rw [if_neg (by omega), if_neg (fun h => hb h.2)]
        · have : (a ≤ i ∧ i < a + (k + 1)) ↔ (a ≤ i ∧ i < a + k) := by omega
          simp only [this]

theorem findRow_some {mat : Mtx n} {col a r : Nat} (h : findRow mat col a = some r) :
    a ≤ r ∧ r < mat.length ∧ (mat.getD r 0).getLsbD col = true := by
  unfold findRow at h
  have h1 := List.mem_of_find?_eq_some h
  have h2 := List.find?_some h
  rw [List.mem_range'_1] at h1
  exact ⟨h1.1, by omega, h2⟩

theorem findRow_none {mat : Mtx n} {col a : Nat} (h : findRow mat col a = none) :
    ∀ i, a ≤ i → i < mat.length → (mat.getD i 0).getLsbD col = false := by
  intro i h1 h2
  unfold findRow at h
  rw [List.find?_eq_none] at h
  have := h i (by rw [List.mem_range'_1]; omega)
  simpa using this

/-! ## One step of the elimination -/

/-- The row that comes to position `i` when rows `row` and `r` are exchanged, for `i` after `row`. -/
def swp (row r i : Nat) : Nat := if i = r then row else i

/-- Row `r` becomes row `row` and is used to clear column `col` in the rows after it. -/
structure Pivot (m row r col : Nat) (f f' : Nat → BitVec n) : Prop where
  hrow : row ≤ r
  hr : r < m
  bit : (f r).getLsbD col = true
  before : ∀ i, i < row → f' i = f i
  at_ : f' row = f r
  after : ∀ i, row < i → i < m → f' i = if (f (swp row r i)).getLsbD col = true then
    f (swp row r i) ^^^ f r else f (swp row r i)

/-- The second matrix undergoes the same operations. -/
structure Pivot2 (m row r col : Nat) (f : Nat → BitVec n) (g g' : Nat → BitVec n) : Prop where
  before : ∀ i, i < row → g' i = g i
  at_ : g' row = g r
  after : ∀ i, row < i → i < m → g' i = if (f (swp row r i)).getLsbD col = true then
    g (swp row r i) ^^^ g r else g (swp row r i)

theorem rankStep_ok {m row col : Nat} {mat : Mtx n} (hm : mat.length = m) (hr : row < m) :
    ∃ mat' row', rankStep mat row col = .ok (mat', row') ∧ mat'.length = m ∧
      ((row' = row + 1 ∧ ∃ r, Pivot m row r col (mat.getD · 0) (mat'.getD · 0)) ∨
       (row' = row ∧ mat' = mat ∧ ∀ i, row ≤ i → i < m → (mat.getD i 0).getLsbD col = false)) := by
  unfold rankStep
  rw [rd_getD (by omega), ok_bind]
  by_cases hb : (mat.getD row 0).getLsbD col = true
  · rw [if_pos hb]
    obtain ⟨mat', h1, h2, h3⟩ := clear_fold (col := col) mat hm hr (row + 1) (m - (row + 1)) (by omega) (by omega)
    unfold clearBelow
    rw [hm, h1, ok_bind]
    refine ⟨mat', row + 1, rfl, h2, Or.inl ⟨rfl, row, le_refl _, hr, hb, fun i hi => ?_, ?_, fun i hi him => ?_⟩⟩
    · show mat'.getD i 0 = _; rw [h3, if_neg (by omega)]
    · show mat'.getD row 0 = _; rw [h3, if_neg (by omega)]
    · show mat'.getD i 0 = _
      unfold swp
      rw [h3, if_neg (show ¬ i = row by omega)]
      have : (row + 1 ≤ i ∧ i < row + 1 + (m - (row + 1))) := by omega
      simp only [this, true_and, and_self]
  · rw [if_neg hb]
    cases hf : findRow mat col row with
    | none => exact ⟨mat, row, rfl, hm, Or.inr ⟨rfl, rfl, fun i h1 h2 => findRow_none hf i h1 (by omega)⟩⟩
    | some r =>
      obtain ⟨hr1, hr2, hr3⟩ := findRow_some hf
      have hne : row ≠ r := by rintro rfl; exact hb hr3
      obtain ⟨mat1, k1, k2, k3⟩ := swapRows_ok (mat := mat) (i := row) (j := r) (by omega) hr2
      obtain ⟨mat', h1, h2, h3⟩ := clear_fold (col := col) mat1 (k2.trans hm) hr (row + 1) (m - (row + 1)) (by omega) (by omega)
      simp only []
      rw [k1, ok_bind]
      unfold clearBelow
      rw [k2, hm, h1, ok_bind]
      have e0 : mat1.getD row 0 = mat.getD r 0 := by rw [k3, if_neg hne, if_pos rfl]
      refine ⟨mat', row + 1, rfl, h2, Or.inl ⟨rfl, r, hr1, by omega, hr3, fun i hi => ?_, ?_, fun i hi him => ?_⟩⟩
      · show mat'.getD i 0 = _
        rw [h3, if_neg (by omega), k3, if_neg (by omega), if_neg (by omega)]
      · show mat'.getD row 0 = _; rw [h3, if_neg (by omega), e0]
      · show mat'.getD i 0 = _
        have e1 : mat1.getD i 0 = mat.getD (if i = r then row else i) 0 := by
          rw [k3]
          by_cases hir : i = r
          · rw [if_pos hir, if_pos hir]
          · rw [if_neg hir, if_neg (show ¬ i = row by omega), if_neg hir]
        unfold swp
        rw [h3, e0, e1]
        have : (row + 1 ≤ i ∧ i < row + 1 + (m - (row + 1))) := by omega
        simp only [this, true_and, and_self]

theorem invStep_ok {m row col : Nat} {mat inv : Mtx n} (hm : mat.length = m) (hv : inv.length = m) (hr : row < m) :
    ∃ mat' inv' row', invStep (mat, inv, row) col = .ok (mat', inv', row') ∧ mat'.length = m ∧ inv'.length = m ∧
      ((row' = row + 1 ∧ ∃ r, Pivot m row r col (mat.getD · 0) (mat'.getD · 0) ∧
          Pivot2 m row r col (mat.getD · 0) (inv.getD · 0) (inv'.getD · 0)) ∨
       (row' = row ∧ mat' = mat ∧ inv' = inv ∧ ∀ i, row ≤ i → i < m → (mat.getD i 0).getLsbD col = false)) := by
  unfold invStep
  simp only []
  rw [rd_getD (by omega), ok_bind]
  by_cases hb : (mat.getD row 0).getLsbD col = true
  · rw [if_pos hb]
    obtain ⟨mat', inv', h1, h2, h2', h3, h3'⟩ := clear_fold2 (col := col) mat inv hm hv hr (row + 1) (m - (row + 1)) (by omega) (by omega)
    unfold clearBelow2
    rw [hm, h1, ok_bind]
    refine ⟨mat', inv', row + 1, rfl, h2, h2', Or.inl ⟨rfl, row, ⟨le_refl _, hr, hb, fun i hi => ?_, ?_, fun i hi him => ?_⟩,
      fun i hi => ?_, ?_, fun i hi him => ?_⟩⟩
    · show mat'.getD i 0 = _; rw [h3, if_neg (by omega)]
    · show mat'.getD row 0 = _; rw [h3, if_neg (by omega)]
    · show mat'.getD i 0 = _
      unfold swp
      rw [h3, if_neg (show ¬ i = row by omega)]
      have : (row + 1 ≤ i ∧ i < row + 1 + (m - (row + 1))) := by omega
      simp only [this, true_and, and_self]
    · show inv'.getD i 0 = _; rw [h3', if_neg (by omega)]
    · show inv'.getD row 0 = _; rw [h3', if_neg (by omega)]
    · show inv'.getD i 0 = _
      unfold swp
      rw [h3', if_neg (show ¬ i = row by omega)]
      have : (row + 1 ≤ i ∧ i < row + 1 + (m - (row + 1))) := by omega
      simp only [this, true_and, and_self]
  · rw [if_neg hb]
    cases hf : findRow mat col (row + 1) with
    | none =>
      refine ⟨mat, inv, row, rfl, hm, hv, Or.inr ⟨rfl, rfl, rfl, fun i h1 h2 => ?_⟩⟩
      rcases Nat.eq_or_lt_of_le h1 with h | h
      · subst h; simpa using hb
      · exact findRow_none hf i h (by omega)
    | some r =>
      obtain ⟨hr1, hr2, hr3⟩ := findRow_some hf
      have hne : row ≠ r := by omega
      obtain ⟨mat1, k1, k2, k3⟩ := swapRows_ok (mat := mat) (i := row) (j := r) (by omega) hr2
      obtain ⟨inv1, l1, l2, l3⟩ := swapRows_ok (mat := inv) (i := row) (j := r) (by omega) (by omega)
      obtain ⟨mat', inv', h1, h2, h2', h3, h3'⟩ :=
        clear_fold2 (col := col) mat1 inv1 (k2.trans hm) (l2.trans hv) hr (row + 1) (m - (row + 1)) (by omega) (by omega)
      simp only []
      rw [k1, ok_bind, l1, ok_bind]
      unfold clearBelow2
      rw [k2, hm, h1, ok_bind]
      have e0 : mat1.getD row 0 = mat.getD r 0 := by rw [k3, if_neg hne, if_pos rfl]
      have e0' : inv1.getD row 0 = inv.getD r 0 := by rw [l3, if_neg hne, if_pos rfl]
      have e1 : ∀ i, row < i → mat1.getD i 0 = mat.getD (if i = r then row else i) 0 := by
        intro i hi
        rw [k3]
        by_cases hir : i = r
        · rw [if_pos hir, if_pos hir]
        · rw [if_neg hir, if_neg (show ¬ i = row by omega), if_neg hir]
      have e1' : ∀ i, row < i → inv1.getD i 0 = inv.getD (if i = r then row else i) 0 := by
        intro i hi
        rw [l3]
        by_cases hir : i = r
        · rw [if_pos hir, if_pos hir]
        · rw [if_neg hir, if_neg (show ¬ i = row by omega), if_neg hir]
      refine ⟨mat', inv', row + 1, rfl, h2, h2', Or.inl ⟨rfl, r, ⟨by omega, by omega, hr3, fun i hi => ?_, ?_, fun i hi him => ?_⟩,
        fun i hi => ?_, ?_, fun i hi him => ?_⟩⟩
      · show mat'.getD i 0 = _
        rw [h3, if_neg (by omega), k3, if_neg (by omega), if_neg (by omega)]
      · show mat'.getD row 0 = _; rw [h3, if_neg (by omega), e0]
      · show mat'.getD i 0 = _
        unfold swp
        rw [h3, e0, e1 i hi]
        have : (row + 1 ≤ i ∧ i < row + 1 + (m - (row + 1))) := by omega
        simp only [this, true_and, and_self]
      · show inv'.getD i 0 = _
        rw [h3', if_neg (by omega), l3, if_neg (by omega), if_neg (by omega)]
      · show inv'.getD row 0 = _; rw [h3', if_neg (by omega), e0']
      · show inv'.getD i 0 = _
        unfold swp
        rw [h3', e0', e1 i hi, e1' i hi]
        have : (row + 1 ≤ i ∧ i < row + 1 + (m - (row + 1))) := by omega
        simp only [this, true_and, and_self]

/-! ## What the elimination keeps -/

def bit (x : BitVec n) (c : Nat) : ZMod 2 := if x.getLsbD c then 1 else 0

theorem bit_xor (x y : BitVec n) (c : Nat) : bit (x ^^^ y) c = bit x c + bit y c := by
  simp only [bit, BitVec.getLsbD_xor]
  cases x.getLsbD c <;> cases y.getLsbD c <;> decide

/-- After the columns `cs`, with `row` rows used: the other rows are zero there, the rows used are independent there. -/
structure Elim (m row : Nat) (cs : List Nat) (f : Nat → BitVec n) : Prop where
  le : row ≤ cs.length
  le' : row ≤ m
  below : ∀ i, row ≤ i → i < m → ∀ c ∈ cs, (f i).getLsbD c = false
  ind : ∀ a : Nat → ZMod 2, (∀ c ∈ cs, ∑ i ∈ Finset.range row, a i * bit (f i) c = 0) → ∀ i < row, a i = 0

theorem Elim.start (m : Nat) (f : Nat → BitVec n) : Elim m 0 [] f :=
  ⟨by simp, by omega, by simp, by intro a _ i hi; omega⟩

theorem Elim.skip {m row : Nat} {cs : List Nat} {f : Nat → BitVec n} (h : Elim m row cs f) {col : Nat}
    (hz : ∀ i, row ≤ i → i < m → (f i).getLsbD col = false) : Elim m row (col :: cs) f where
  le := by have := h.le; simp; omega
  le' := h.le'
  below := by
    intro i h1 h2 c hc
    rcases List.mem_cons.mp hc with rfl | hc
    · exact hz i h1 h2
    · exact h.below i h1 h2 c hc
  ind := fun a ha => h.ind a fun c hc => ha c (List.mem_cons_of_mem _ hc)

theorem Elim.pivot {m row r : Nat} {cs : List Nat} {f f' : Nat → BitVec n} (h : Elim m row cs f) {col : Nat}
    (p : Pivot m row r col f f') : Elim m (row + 1) (col :: cs) f' where
  le := by have := h.le; simp; omega
  le' := by have := p.hrow; have := p.hr; omega
  below := by
    intro i h1 h2 c hc
    rw [p.after i (by omega) h2]
    have hz : ∀ c ∈ cs, (f (swp row r i)).getLsbD c = false := by
      intro c hc
      apply h.below _ _ _ c hc
      · unfold swp; split <;> omega
      · have := p.hr; have := p.hrow; unfold swp; split <;> omega
    rcases List.mem_cons.mp hc with rfl | hc
    · split
      · rename_i hb; rw [BitVec.getLsbD_xor, hb, p.bit]; rfl
      · rename_i hb; simpa using hb
    · split
      · rw [BitVec.getLsbD_xor, hz c hc, h.below r p.hrow p.hr c hc]; rfl
      · exact hz c hc
  ind := by
    intro a ha
    have h1 : ∀ i < row, a i = 0 := by
      apply h.ind a
      intro c hc
      have := ha c (List.mem_cons_of_mem _ hc)
      rw [Finset.sum_range_succ, p.at_] at this
      have z : bit (f r) c = 0 := by simp [bit, h.below r p.hrow p.hr c hc]
      rw [z, mul_zero, add_zero] at this
      rw [← this]
      refine Finset.sum_congr rfl fun i hi => ?_
      rw [p.before i (Finset.mem_range.mp hi)]
    intro i hi
    by_cases hir : i < row
    · exact h1 i hir
    · have : i = row := by omega
      subst this
      have := ha col (by simp)
      rw [Finset.sum_range_succ, p.at_] at this
      have z : bit (f r) col = 1 := by simp [bit, p.bit]
      rw [z, mul_one, Finset.sum_eq_zero, zero_add] at this
      · exact this
      · intro j hj
        rw [h1 j (Finset.mem_range.mp hj), zero_mul]

/-- The span of the first `m` rows. -/
def rowSpan (m : Nat) (f : Nat → BitVec n) : Submodule (ZMod 2) (Fin n → ZMod 2) :=
  Submodule.span (ZMod 2) (Set.range fun i : Fin m => vec (f i))

theorem mem_rowSpan {m : Nat} {f : Nat → BitVec n} {i : Nat} (hi : i < m) : vec (f i) ∈ rowSpan m f :=
  Submodule.subset_span ⟨⟨i, hi⟩, rfl⟩

theorem xor_self_right (x y : BitVec n) : x ^^^ y ^^^ y = x := by
  rw [BitVec.xor_assoc, BitVec.xor_self, BitVec.xor_zero]

theorem Pivot.span {m row r col : Nat} {f f' : Nat → BitVec n} (p : Pivot m row r col f f') : rowSpan m f' = rowSpan m f := by
  have hrm := p.hr
  have hrr := p.hrow
  apply le_antisymm
  · refine Submodule.span_le.mpr ?_
    rintro _ ⟨⟨i, hi⟩, rfl⟩
    show vec (f' i) ∈ rowSpan m f
    rcases Nat.lt_trichotomy i row with h | h | h
    · rw [p.before i h]; exact mem_rowSpan hi
    · subst h; rw [p.at_]; exact mem_rowSpan hrm
    · rw [p.after i h hi]
      have : swp row r i < m := by unfold swp; split <;> omega
      split
      · rw [vec_xor]; exact Submodule.add_mem _ (mem_rowSpan this) (mem_rowSpan hrm)
      · exact mem_rowSpan this
  · refine Submodule.span_le.mpr ?_
    rintro _ ⟨⟨i, hi⟩, rfl⟩
    show vec (f i) ∈ rowSpan m f'
    have hp : vec (f r) ∈ rowSpan m f' := by rw [← p.at_]; exact mem_rowSpan (by omega)
    have gen : ∀ j, row < j → j < m → vec (f (swp row r j)) ∈ rowSpan m f' := by
      intro j h1 h2
      have e := p.after j h1 h2
      split at e
      · have e2 : f (swp row r j) = f' j ^^^ f r := by rw [e, xor_self_right]
        rw [e2, vec_xor]
        exact Submodule.add_mem _ (mem_rowSpan h2) hp
      · rw [← e]; exact mem_rowSpan h2
    rcases Nat.lt_trichotomy i row with h | h | h
    · rw [← p.before i h]; exact mem_rowSpan hi
    · by_cases hir : row = r
      · rw [h, hir]; exact hp
      · have := gen r (by omega) hrm
        rw [swp, if_pos rfl] at this
        rw [h]; exact this
    · by_cases hir : i = r
      · rw [hir]; exact hp
      · have := gen i h hi
        rw [swp, if_neg hir] at this
        exact this

/-- When all columns have been treated, the number of rows used is the dimension of the span of all rows. -/
theorem Elim.finrank {m row : Nat} {cs : List Nat} {f : Nat → BitVec n} (h : Elim m row cs f) (hc : ∀ c < n, c ∈ cs) :
    Module.finrank (ZMod 2) (rowSpan m f) = row := by
  have hli : LinearIndependent (ZMod 2) (fun i : Fin row => vec (f i)) := by
    rw [Fintype.linearIndependent_iff]
    intro g hg i
    have := h.ind (fun j => if hj : j < row then g ⟨j, hj⟩ else 0) (by
      intro c hcs
      by_cases hcn : c < n
      · have := congrFun hg ⟨c, hcn⟩
        rw [Finset.sum_apply] at this
        rw [← Fin.sum_univ_eq_sum_range (fun j => (if hj : j < row then g ⟨j, hj⟩ else 0) * bit (f j) c) row]
        rw [Pi.zero_apply] at this
        rw [← this]
        refine Finset.sum_congr rfl fun j _ => ?_
        simp [vec, bit]
      · refine Finset.sum_eq_zero fun j _ => ?_
        rw [bit, BitVec.getLsbD_of_ge _ _ (by omega)]; simp) i i.isLt
    simpa using this
  have hs : rowSpan m f = Submodule.span (ZMod 2) (Set.range fun i : Fin row => vec (f i)) := by
    apply le_antisymm
    · refine Submodule.span_le.mpr ?_
      rintro _ ⟨⟨i, hi⟩, rfl⟩
      show vec (f i) ∈ _
      by_cases hir : i < row
      · exact Submodule.subset_span ⟨⟨i, hir⟩, rfl⟩
      · have : vec (f i) = 0 := by
          funext j
          have hb := h.below i (by omega) hi j (hc j j.isLt)
          simp only [vec, hb]; rfl
        rw [this]; exact Submodule.zero_mem _
    · refine Submodule.span_le.mpr ?_
      rintro _ ⟨⟨i, hi⟩, rfl⟩
      exact mem_rowSpan (lt_of_lt_of_le hi h.le')
  rw [hs, finrank_span_eq_card hli, Fintype.card_fin]

theorem rank_toMat (m : Nat) (M : Mtx n) : (toMat m M).rank = Module.finrank (ZMod 2) (rowSpan m (M.getD · 0)) := by
  rw [Matrix.rank_eq_finrank_span_row]
  rfl

/-! ## The rank -/

theorem rankLoop_ok {m : Nat} (hmn : n ≤ m) : ∀ (k a row : Nat) (mat : Mtx n) (cs : List Nat), a + k = n + 1 → 1 ≤ a →
    cs.length = a - 1 → (∀ c < n, n - (a - 1) ≤ c → c ∈ cs) → mat.length = m → Elim m row cs (mat.getD · 0) →
    ∃ row', rankLoop (List.range' a k) mat row = .ok row' ∧ Module.finrank (ZMod 2) (rowSpan m (mat.getD · 0)) = row'
  | 0, a, row, mat, cs, hak, _, _, hcs, _, he =>
    ⟨row, rfl, he.finrank fun c hc => hcs c hc (by omega)⟩
  | k + 1, a, row, mat, cs, hak, ha, hl, hcs, hm, he => by
    have hrow : row < m := by have := he.le; omega
    obtain ⟨mat', row', h1, h2, h3⟩ := rankStep_ok (col := n - a) hm hrow
    have he' : Elim m row' ((n - a) :: cs) (mat'.getD · 0) := by
      rcases h3 with ⟨rfl, r, p⟩ | ⟨rfl, rfl, hz⟩
      · exact he.pivot p
      · exact he.skip hz
    have hs : rowSpan m (mat'.getD · 0) = rowSpan m (mat.getD · 0) := by
      rcases h3 with ⟨_, r, p⟩ | ⟨_, rfl, _⟩
      · exact p.span
      · rfl
    have hcs' : ∀ c < n, n - (a + 1 - 1) ≤ c → c ∈ (n - a) :: cs := by
      intro c hc hca
      by_cases hh : c = n - a
      · rw [hh]; simp
      · exact List.mem_cons_of_mem _ (hcs c hc (by omega))
    rw [List.range'_succ, rankLoop, h1, ok_bind]
    simp only []
    by_cases hn : row' = n
    · refine ⟨row', by simp [hn], ?_⟩
      rw [← hs]
      refine he'.finrank fun c hc => hcs' c hc ?_
      have := he'.le
      simp only [List.length_cons] at this
      omega
    · have : (row' == n) = false := by simpa using hn
      rw [this, ← hs]
      exact rankLoop_ok hmn k (a + 1) row' mat' ((n - a) :: cs) (by omega) (by omega) (by simp; omega) hcs' h2 he'

theorem rankOf_ok {m : Nat} (hn : 0 < n) (hmn : n ≤ m) {M : Mtx n} (hm : M.length = m) : rankOf M = .ok (toMat m M).rank := by
  obtain ⟨r, h1, h2⟩ := rankLoop_ok hmn n 1 0 M [] (by omega) (le_refl _) rfl (by intro c hc h; omega) hm (Elim.start m _)
  unfold rankOf
  rw [rd_ok (by omega), ok_bind, h1, rank_toMat, h2]

theorem rank_unit (A : Matrix (Fin n) (Fin n) (ZMod 2)) : A.rank = n ↔ IsUnit A := by
  constructor
  · intro h
    rw [← Matrix.linearIndependent_rows_iff_isUnit, linearIndependent_iff_card_eq_finrank_span, Fintype.card_fin]
    rw [Matrix.rank_eq_finrank_span_row] at h
    exact h.symm
  · intro h
    rw [Matrix.rank_of_isUnit A h, Fintype.card_fin]

/-! ## The inverse -/

/-- The rows of `mat` are combinations of the rows of `A`, with the coefficients in `inv`. -/
def Comb (A : Matrix (Fin n) (Fin n) (ZMod 2)) (f g : Nat → BitVec n) : Prop :=
  ∀ i < n, vec (f i) = Matrix.vecMul (vec (g i)) A

theorem Comb.pivot {A : Matrix (Fin n) (Fin n) (ZMod 2)} {f f' g g' : Nat → BitVec n} {row r col : Nat} (h : Comb A f g)
    (p : Pivot n row r col f f') (p2 : Pivot2 n row r col f g g') : Comb A f' g' := by
  intro i hi
  rcases Nat.lt_trichotomy i row with h1 | h1 | h1
  · rw [p.before i h1, p2.before i h1]; exact h i hi
  · subst h1; rw [p.at_, p2.at_]; exact h r p.hr
  · rw [p.after i h1 hi, p2.after i h1 hi]
    have hs : swp row r i < n := by have := p.hr; have := p.hrow; unfold swp; split <;> omega
    split
    · rw [vec_xor, vec_xor, Matrix.add_vecMul, h _ hs, h r p.hr]
    · exact h _ hs

/-- Upper triangular with ones on the diagonal, for the first `row` rows. -/
def Tri (row : Nat) (f : Nat → BitVec n) : Prop :=
  ∀ q < row, (f q).getLsbD q = true ∧ ∀ i, q < i → i < row → (f i).getLsbD q = false

theorem Tri.pivot {f f' : Nat → BitVec n} {row r : Nat} {cs : List Nat} (h : Tri row f) (he : Elim n row cs f)
    (hcs : ∀ c < row, c ∈ cs) (p : Pivot n row r row f f') : Tri (row + 1) f' := by
  intro q hq
  by_cases hqr : q = row
  · subst hqr
    refine ⟨by rw [p.at_]; exact p.bit, fun i h1 h2 => by omega⟩
  · have hq' : q < row := by omega
    refine ⟨by rw [p.before q hq']; exact (h q hq').1, fun i h1 h2 => ?_⟩
    by_cases hir : i = row
    · subst hir; rw [p.at_]; exact he.below r p.hrow p.hr q (hcs q hq')
    · rw [p.before i (by omega)]; exact (h q hq').2 i h1 (by omega)

theorem phase1 {A : Matrix (Fin n) (Fin n) (ZMod 2)} {M inv : Mtx n} (hM : M.length = n) (hv : inv.length = n)
    (hc : Comb A (M.getD · 0) (inv.getD · 0)) : ∀ j, j ≤ n → ∃ mat' inv' row cs, (List.range j).foldlM invStep (M, inv, 0) = .ok (mat', inv', row) ∧
      mat'.length = n ∧ inv'.length = n ∧ cs.length = j ∧ (∀ c < j, c ∈ cs) ∧ Elim n row cs (mat'.getD · 0) ∧
      rowSpan n (mat'.getD · 0) = rowSpan n (M.getD · 0) ∧ Comb A (mat'.getD · 0) (inv'.getD · 0) ∧ (row = j → Tri j (mat'.getD · 0))
  | 0, _ => ⟨M, inv, 0, [], rfl, hM, hv, rfl, by omega, Elim.start _ _, rfl, hc, by intro _ q hq; omega⟩
  | j + 1, hj => by
    obtain ⟨mat, iv, row, cs, h1, h2, h3, h4, h5, h6, h7, h8, h9⟩ := phase1 hM hv hc j (by omega)
    have hrow : row < n := by have := h6.le; omega
    obtain ⟨mat', inv', row', k1, k2, k3, k4⟩ := invStep_ok (col := j) h2 h3 hrow
    refine ⟨mat', inv', row', j :: cs, ?_, k2, k3, by simp [h4], ?_, ?_⟩
    · rw [List.range_succ, List.foldlM_append, h1, ok_bind]
      simp only [List.foldlM_cons, List.foldlM_nil]
      rw [k1]; rfl
    · intro c hcj
      by_cases hh : c = j
      · rw [hh]; simp
      · exact List.mem_cons_of_mem _ (h5 c (by omega))
    · rcases k4 with ⟨rfl, r, p, p2⟩ | ⟨rfl, rfl, rfl, hz⟩
      · refine ⟨h6.pivot p, p.span.trans h7, h8.pivot p p2, fun hr => ?_⟩
        have : row = j := by omega
        subst this
        exact (h9 rfl).pivot h6 h5 p
      · exact ⟨h6.skip hz, h7, h8, fun hr => by have := h6.le; omega⟩

theorem phase2 {A : Matrix (Fin n) (Fin n) (ZMod 2)} : ∀ (c : Nat) (M inv : Mtx n), c ≤ n → M.length = n → inv.length = n →
    Comb A (M.getD · 0) (inv.getD · 0) → Tri n (M.getD · 0) →
    (∀ q, c ≤ q → q < n → ∀ i < n, (M.getD i 0).getLsbD q = decide (i = q)) →
    ∃ mat' inv', (List.range c).reverse.foldlM clearAbove (M, inv) = .ok (mat', inv') ∧ inv'.length = n ∧
      Comb A (mat'.getD · 0) (inv'.getD · 0) ∧ ∀ i < n, ∀ q < n, (mat'.getD i 0).getLsbD q = decide (i = q)
  | 0, M, inv, _, _, hv, hc, _, hd => ⟨M, inv, rfl, hv, hc, fun i hi q hq => hd q (by omega) hq i hi⟩
  | c + 1, M, inv, hcn, hM, hv, hc, ht, hd => by
    obtain ⟨mat', inv', h1, h2, h3, h4, h5⟩ := clear_fold2 (col := c) M inv hM hv (show c < n by omega) 0 c (by omega) (by omega)
    have e : clearAbove (M, inv) c = .ok (mat', inv') := by
      unfold clearAbove
      rw [List.range_eq_range', h1]
    rw [List.range_succ, List.reverse_append]
    simp only [List.reverse_cons, List.reverse_nil, List.nil_append, List.cons_append, List.foldlM_cons]
    rw [e, ok_bind]
    have hcc : ∀ q < n, (M.getD c 0).getLsbD q = decide (c = q) := by
      intro q hq
      rcases Nat.lt_trichotomy q c with h | h | h
      · rw [(ht q hq).2 c h (by omega)]; simp; omega
      · subst h; rw [(ht q hq).1]; simp
      · exact hd q (by omega) hq c (by omega)
    have hbit : ∀ i < n, ∀ q < n, (mat'.getD i 0).getLsbD q = if q = c ∧ i < c then false else (M.getD i 0).getLsbD q := by
      intro i hi q hq
      rw [h4]
      by_cases hb : (0 ≤ i ∧ i < 0 + c) ∧ (M.getD i 0).getLsbD c = true
      · rw [if_pos hb, BitVec.getLsbD_xor, hcc q hq]
        by_cases hqc : q = c
        · subst hqc
          rw [if_pos ⟨rfl, by omega⟩, hb.2]; simp
        · rw [if_neg (by omega), decide_eq_false (by omega), Bool.xor_false]
      · rw [if_neg hb]
        by_cases hqc : q = c ∧ i < c
        · rw [if_pos hqc, hqc.1]
          have : ¬ (M.getD i 0).getLsbD c = true := fun h => hb ⟨by omega, h⟩
          simpa using this
        · rw [if_neg hqc]
    refine phase2 c mat' inv' (by omega) h2 h3 ?_ ?_ ?_
    · intro i hi
      show vec (mat'.getD i 0) = Matrix.vecMul (vec (inv'.getD i 0)) A
      rw [h4, h5]
      split
      · rw [vec_xor, vec_xor, Matrix.add_vecMul]
        exact congrArg₂ (· + ·) (hc i hi) (hc c (by omega))
      · exact hc i hi
    · intro q hq
      refine ⟨?_, fun i h6 h7 => ?_⟩
      · show (mat'.getD q 0).getLsbD q = true
        rw [hbit q hq q hq, if_neg (by omega)]; exact (ht q hq).1
      · show (mat'.getD i 0).getLsbD q = false
        rw [hbit i h7 q hq]
        split
        · rfl
        · exact (ht q hq).2 i h6 h7
    · intro q h6 h7 i hi
      rw [hbit i hi q h7]
      by_cases hqc : q = c
      · subst hqc
        rcases Nat.lt_trichotomy i q with h | h | h
        · rw [if_pos ⟨rfl, h⟩, decide_eq_false (by omega)]
        · subst h; rw [if_neg (by omega), hcc i hi]
        · rw [if_neg (by omega), (ht q h7).2 i h hi, decide_eq_false (by omega)]
      · rw [if_neg (by omega)]; exact hd q (by omega) h7 i hi

theorem invert_ok (hn : 0 < n) {M : Mtx n} (hM : M.length = n) (hu : IsUnit (toMat n M)) :
    ∃ inv, invert M = .ok inv ∧ inv.length = n ∧ toMat n inv = (toMat n M)⁻¹ := by
  have h0 : Comb (toMat n M) (M.getD · 0) (((List.range n).map fun i => setBit (0 : BitVec n) i true).getD · 0) := by
    intro i hi
    have : vec (((List.range n).map fun i => setBit (0 : BitVec n) i true).getD i 0) = Pi.single ⟨i, hi⟩ 1 := by
      funext j
      simp only [vec, List.getD_eq_getElem?_getD, List.getElem?_map, List.getElem?_range hi, Option.map_some, Option.getD_some]
      rw [getLsbD_setBit hi, Pi.single_apply]
      by_cases h : j = ⟨i, hi⟩
      · simp [h]
      · have : ¬ (j : Nat) = i := fun hh => h (Fin.ext hh)
        simp [h, this]
    show _ = Matrix.vecMul (vec _) _
    rw [this, Matrix.single_one_vecMul]
    rfl
  obtain ⟨mat, iv, row, cs, h1, h2, h3, h4, h5, h6, h7, h8, h9⟩ := phase1 hM (by simp) h0 n (le_refl _)
  have hrow : row = n := by
    rw [← h6.finrank h5, h7, ← rank_toMat, (rank_unit _).mpr hu]
  obtain ⟨mat', inv', k1, k2, k3, k4⟩ := phase2 n mat iv (le_refl _) h2 h3 h8 (h9 hrow) (by intro q hq hq'; omega)
  refine ⟨inv', ?_, k2, ?_⟩
  · unfold invert
    rw [rd_ok (by omega), ok_bind]
    simp only []
    rw [h1, ok_bind]
    simp only []
    rw [k1]; rfl
  · symm
    apply Matrix.inv_eq_left_inv
    ext i j
    have := congrFun (k3 i i.isLt) j
    have e : (toMat n inv' * toMat n M) i j = Matrix.vecMul (vec (inv'.getD i 0)) (toMat n M) j := rfl
    rw [e]
    refine this.symm.trans ?_
    show (if (mat'.getD i 0).getLsbD j then (1 : ZMod 2) else 0) = _
    rw [k4 i i.isLt j j.isLt, Matrix.one_apply]
    by_cases h : i = j
    · simp [h]
    · have : ¬ (i : Nat) = j := fun hh => h (Fin.ext hh)
      simp [h, this]

end LowMC
end SecJoin
