import Verif.Sort.PlainLemmas
/-!
# C16: the plaintext sort
-/
namespace SecJoin

/-- Little-endian value of a key, written out independently of the model. -/
def leValue (r : Row) : Nat := ((List.range r.length).map fun i => (r.getD i 0).toNat * 256 ^ i).sum

theorem leValue_eq (r : Row) : leValue r = Table.bytesNat r := by
  induction r with
  | nil => rfl
  | cons b t ih =>
    have : leValue (b :: t) = b.toNat + 256 * leValue t := by
      unfold leValue
      rw [List.length_cons, List.range_succ_eq_map, List.map_cons, List.map_map, List.sum_cons]
      congr 1
      · simp
      · have hm : ∀ (l : List Nat) (f : Nat → Nat), (l.map fun i => 256 * f i).sum = 256 * (l.map f).sum := by
          intro l f
          induction l with
          | nil => rfl
          | cons a t ih => simp only [List.map_cons, List.sum_cons, ih, Nat.mul_add]
        rw [← hm]
        congr 1
        apply List.map_congr_left
        intro i _
        simp only [Function.comp, List.getD_cons_succ, Nat.succ_eq_add_one, Nat.pow_succ]
        rw [Nat.mul_comm (256 ^ i) 256, Nat.mul_left_comm]
    rw [this, ih]; rfl

/-- The comparison of two keys of equal length is the comparison of their little-endian values. -/
theorem C16_lessThan {l r : Row} (h : l.length = r.length) :
    lessThan l r = true ↔ leValue l < leValue r := by
  rw [lessThan_spec h, leValue_eq, leValue_eq, decide_eq_true_iff]

/-- The sort returns a bijection that lists the rows by nondecreasing little-endian value, rows of
equal value by increasing index. -/
theorem C16_sort {n c : Nat} {x : List Row} (h : Shape n c x) :
    IsBijection (plainSort x) ∧ (plainSort x).length = n ∧
      ∀ i j (hi : i < (plainSort x).length) (hj : j < (plainSort x).length), i < j →
        leValue (x.getD (plainSort x)[i] []) < leValue (x.getD (plainSort x)[j] []) ∨
        (leValue (x.getD (plainSort x)[i] []) = leValue (x.getD (plainSort x)[j] []) ∧
          (plainSort x)[i] < (plainSort x)[j]) := by
  obtain ⟨h1, h2, h3⟩ := plainSort_spec h
  refine ⟨(isBijection_iff _).2 h1, h2, ?_⟩
  rw [List.pairwise_iff_getElem] at h3
  intro i j hi hj hij
  have := h3 i j hi hj hij
  simp only [KeyOrder, rowKey] at this
  rw [leValue_eq, leValue_eq]
  exact this

namespace Table

/-- The keys of a row, first column first. -/
def rowKeys (t : Table) (i : Nat) : List Nat := t.cols.map fun c => leValue (c.data.rows.getD i [])

theorem lexOrder_keys (cols : List Column) (a b : Nat) : LexOrder cols a b ↔
    (cols.map fun c => leValue (c.data.rows.getD a [])) < (cols.map fun c => leValue (c.data.rows.getD b [])) ∨
    ((cols.map fun c => leValue (c.data.rows.getD a [])) =
      (cols.map fun c => leValue (c.data.rows.getD b [])) ∧ a < b) := by
  induction cols with
  | nil => simp [LexOrder]
  | cons c t ih =>
    simp only [LexOrder, ih, List.map_cons, List.cons_lt_cons_iff, List.cons.injEq, leValue_eq, rowKey]
    tauto

/-- Sorting a table moves whole rows (and flags) by one bijection, such that the rows end up in
lexicographic order of their keys, first column most significant; rows with all keys equal keep
their order. -/
theorem C16_table {t : Table} {n : Nat} (ht : t.WF n) :
    ∃ r q, t.sort = .ok r ∧ IsBijection q ∧ q.length = n ∧ r.getColumnInfo = t.getColumnInfo ∧
      (∀ i (hi : i < q.length), r.rowAt i = t.rowAt q[i] ∧ r.isActive[i]? = t.isActive[q[i]]?) ∧
      ∀ i j (hi : i < q.length) (hj : j < q.length), i < j →
        t.rowKeys q[i] < t.rowKeys q[j] ∨ (t.rowKeys q[i] = t.rowKeys q[j] ∧ q[i] < q[j]) := by
  obtain ⟨q, h1, h2, h3, h4⟩ := sortLoop_ok ht (List.range n) (IsPermList.range n) (by simp)
    t.cols.length (Nat.le_refl _) (by
      rw [List.drop_length]
      exact List.pairwise_lt_range)
  have e1 : gather (List.range n) t.isActive = t.isActive := by
    rcases ht.flags with h | h
    · rw [h]; simp [gather]
    · rw [← h]; exact gather_range _
  have e2 : t.cols.map (withRows (gather (List.range n))) = t.cols := by
    conv => rhs; rw [← List.map_id t.cols]
    apply List.map_congr_left
    intro c hc
    have := (ht.col c hc).shape.1
    simp only [withRows, id]
    rw [← this, gather_range]
  rw [e1, e2] at h4
  refine ⟨_, q, h4, (isBijection_iff _).2 h1, h2, ?_, ?_, ?_⟩
  · simp [getColumnInfo, withRows]
  · intro i hi
    have hb : ∀ {α : Type} {x : List α}, x.length = n → ∀ a ∈ q, a < x.length := by
      intro α x hx; rw [hx, ← h2]; exact h1.1
    refine ⟨?_, ?_⟩
    · simp only [rowAt, List.map_map]
      apply List.map_congr_left
      intro c hc
      simp only [Function.comp, withRows]
      rw [gather_getElem? (hb (ht.col c hc).shape.1), List.getElem?_eq_getElem hi]; rfl
    · rcases ht.flags with h | h
      · simp [h, gather]
      · simp only
        rw [gather_getElem? (hb h), List.getElem?_eq_getElem hi]; rfl
  · intro i j hi hj hij
    rw [List.pairwise_iff_getElem] at h3
    exact (lexOrder_keys _ _ _).1 (h3 i j hi hj hij)

end Table

/-! ## Examples -/

example : lessThan [0, 1] [255, 1] = true ∧ lessThan [255, 0] [0, 1] = true ∧
    lessThan [0, 1] [255, 0] = false := by decide

example : IsBijection (plainSort [[0, 1], [5, 0], [0, 1], [255, 0]]) :=
  (C16_sort (n := 4) (c := 2) (by decide)).1

example : ∃ r, Table.exTable.sort = .ok r := by
  obtain ⟨r, q, h, _⟩ := Table.C16_table Table.exTable_wf
  exact ⟨r, h⟩

end SecJoin
