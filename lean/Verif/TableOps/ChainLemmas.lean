import Verif.TableOps.ChainSpec
import Verif.TableOps.GroupEndProps
import Verif.TableOps.WhereGmwProps
/-!
# Lemmas for programs on shared tables
-/
namespace SecJoin
namespace Chain
open EndToEnd (ColRef mkQuery shareMem SharedCol numRows cell tableRows joined_row get_ok)
open GroupEnd (mkInp)
open OmJoin (bind_inv)
open Extract (revRow)

/-- A table that operations can be applied to: well-formed, no bits beyond the widths, and flags that are bits. -/
structure Good (t : Table) : Prop where
  wf : t.WF t.rows
  clean : t.Clean t.rows
  bits : ∀ f ∈ t.isActive, f = 0 ∨ f = 1

/-- `t0` and `t1` are shares of `t`. -/
structure SharedTab (t0 t1 t : Table) : Prop where
  wf0 : t0.WF t.rows
  wf1 : t1.WF t.rows
  info0 : t0.getColumnInfo = t.getColumnInfo
  info1 : t1.getColumnInfo = t.getColumnInfo
  cols : Table.xcols t0 t1 = t.cols
  len0 : t0.isActive.length = t.isActive.length
  len1 : t1.isActive.length = t.isActive.length
  flag : ∀ r, r < t.isActive.length → t0.isActive.getD r 0 ^^^ t1.isActive.getD r 0 = t.isActive.getD r 0

/-- The tables of both parties are shares of the tables `mem`. -/
structure SharedMem (m0 m1 mem : List Table) : Prop where
  len0 : m0.length = mem.length
  len1 : m1.length = mem.length
  tab : ∀ (k : Nat) t, mem[k]? = some t → ∃ t0 t1, m0[k]? = some t0 ∧ m1[k]? = some t1 ∧ SharedTab t0 t1 t

theorem SharedMem.cols {m0 m1 mem : List Table} (h : SharedMem m0 m1 mem) (hg : ∀ t ∈ mem, Good t) (c : ColRef) (x : Column) (hx : c.get mem = .ok x) :
    ∃ x0 x1, c.get m0 = .ok x0 ∧ c.get m1 = .ok x1 ∧ SharedCol (numRows mem c.tbl) x x0 x1 :=
  EndToEnd.cols_ok (fun t ht => ⟨(hg t ht).wf, (hg t ht).clean⟩) (fun k t hk => by
    obtain ⟨t0, t1, a, b, s⟩ := h.tab k t hk
    exact ⟨t0, t1, a, b, s.wf0, s.wf1, s.info0, s.info1, s.cols⟩) c x hx

theorem SharedMem.flags {m0 m1 mem : List Table} (h : SharedMem m0 m1 mem) (k : Nat) (t : Table) (hk : mem[k]? = some t) :
    ∃ s0 s1, m0[k]? = some s0 ∧ m1[k]? = some s1 ∧ s0.isActive.length = t.isActive.length ∧
      s1.isActive.length = t.isActive.length ∧ ∀ r, r < t.isActive.length → s0.isActive.getD r 0 ^^^ s1.isActive.getD r 0 = t.isActive.getD r 0 := by
  obtain ⟨t0, t1, a, b, s⟩ := h.tab k t hk
  exact ⟨t0, t1, a, b, s.len0, s.len1, s.flag⟩

theorem SharedMem.push {m0 m1 mem : List Table} (h : SharedMem m0 m1 mem) {u0 u1 u : Table} (hu : SharedTab u0 u1 u) :
    SharedMem (m0 ++ [u0]) (m1 ++ [u1]) (mem ++ [u]) := by
  refine ⟨by simp [h.len0], by simp [h.len1], fun k t hk => ?_⟩
  by_cases hlt : k < mem.length
  · rw [List.getElem?_append_left hlt] at hk
    rw [List.getElem?_append_left (by rw [h.len0]; exact hlt), List.getElem?_append_left (by rw [h.len1]; exact hlt)]
    exact h.tab k t hk
  · have hge := Nat.not_lt.mp hlt
    rw [List.getElem?_append_right hge] at hk
    rw [List.getElem?_append_right (by rw [h.len0]; exact hge), List.getElem?_append_right (by rw [h.len1]; exact hge), h.len0, h.len1]
    cases hd : k - mem.length with
    | zero =>
      rw [hd] at hk
      injection hk with hk
      subst hk
      exact ⟨u0, u1, rfl, rfl, hu⟩
    | succ j => rw [hd] at hk; cases hk

/-! ## The sum of two shares -/

/-- The table that `u0` and `u1` are shares of. -/
def sum (u0 u1 : Table) : Table := ⟨List.zipWith (· ^^^ ·) u0.isActive u1.isActive, Table.xcols u0 u1⟩

section
variable {n : Nat} {u0 u1 : Table}

theorem sum_info (hi : u0.getColumnInfo = u1.getColumnInfo) : (sum u0 u1).getColumnInfo = u0.getColumnInfo := by
  have hlen : u0.cols.length = u1.cols.length := by simpa [Table.getColumnInfo] using congrArg List.length hi
  unfold sum Table.getColumnInfo Table.xcols
  apply List.ext_getElem
  · simp [hlen]
  · intro i h2 h3; simp

theorem sum_rowAt (w0 : u0.WF n) (w1 : u1.WF n) (hi : u0.getColumnInfo = u1.getColumnInfo) (hl : u0.isActive.length = u1.isActive.length) {i : Nat} (hn : i < n) :
    (sum u0 u1).rowAt i = (revRow u0 u1 i).map some := by
  have hf : u0.isActive = [] ∨ u1.isActive.length = n := by
    rcases w0.flags with h | h
    · exact Or.inl h
    · exact Or.inr (by omega)
  rw [← joined_row w0 w1 hi hf hn, Table.joined_eq w0 w1 hi hf]
  rfl

theorem sum_col (w0 : u0.WF n) (w1 : u1.WF n) (hi : u0.getColumnInfo = u1.getColumnInfo) : ∀ c ∈ (sum u0 u1).cols, c.WF n := by
  intro c hc
  have hlen : u0.cols.length = u1.cols.length := by simpa [Table.getColumnInfo] using congrArg List.length hi
  unfold sum Table.xcols at hc
  obtain ⟨i, h, rfl⟩ := List.getElem_of_mem hc
  simp only [List.length_zipWith, Nat.lt_min] at h
  simp only [List.getElem_zipWith]
  have v0 := w0.col _ (List.getElem_mem h.1)
  have v1 := w1.col _ (List.getElem_mem h.2)
  have e : u1.cols[i].info = u0.cols[i].info := by
    have := congrArg (fun l => l[i]?) hi
    simp only [Table.getColumnInfo, List.getElem?_map, List.getElem?_eq_getElem h.1, List.getElem?_eq_getElem h.2, Option.map_some, Option.some.injEq] at this
    exact this.symm
  have s1 := v1.shape
  rw [e] at s1
  refine ⟨rfl, rfl, ⟨?_, ?_⟩, v0.str⟩
  · simp [Table.xrows, v0.shape.1, s1.1]
  · intro x hx
    unfold Table.xrows at hx
    obtain ⟨j, hj, rfl⟩ := List.getElem_of_mem hx
    simp only [List.length_zipWith, Nat.lt_min] at hj
    simp only [List.getElem_zipWith]
    unfold xorRow
    rw [List.length_zipWith, v0.shape.2 _ (List.getElem_mem hj.1), s1.2 _ (List.getElem_mem hj.2), Nat.min_self]

theorem sum_wf (w0 : u0.WF n) (w1 : u1.WF n) (hi : u0.getColumnInfo = u1.getColumnInfo) (hl : u0.isActive.length = u1.isActive.length) :
    (sum u0 u1).WF n := by
  have hinf := sum_info hi
  refine ⟨sum_col w0 w1 hi, ?_, fun h => ?_, ?_⟩
  · have := w0.names
    have e : (sum u0 u1).cols.map (·.info.name) = u0.cols.map (·.info.name) := by
      have := congrArg (List.map (·.name)) hinf
      simpa [Table.getColumnInfo, List.map_map, Function.comp_def] using this
    rw [e]; exact this
  · apply w0.empty
    have : u0.getColumnInfo = [] := by rw [← hinf]; simp [Table.getColumnInfo, h]
    simpa [Table.getColumnInfo] using this
  · rcases w0.flags with h | h
    · left; simp [sum, h]
    · right; simp [sum, h, ← hl]

/-- Two well-formed tables with the same columns are shares of their sum. -/
theorem shared_sum (w0 : u0.WF n) (w1 : u1.WF n) (hi : u0.getColumnInfo = u1.getColumnInfo) (hl : u0.isActive.length = u1.isActive.length) :
    SharedTab u0 u1 (sum u0 u1) := by
  have hn : (sum u0 u1).rows = n := (sum_wf w0 w1 hi hl).rows_eq
  refine ⟨by rw [hn]; exact w0, by rw [hn]; exact w1, (sum_info hi).symm, by rw [sum_info hi, hi], rfl, by simp [sum, ← hl], by simp [sum, ← hl], ?_⟩
  intro r hr
  have : r < u0.isActive.length := by simp [sum, ← hl] at hr; exact hr
  have h1 : r < u1.isActive.length := by omega
  simp [sum, List.getD_eq_getElem?_getD, List.getElem?_zipWith, List.getElem?_eq_getElem this, List.getElem?_eq_getElem h1]

end

/-- The bits of a table's cells, in terms of its rows. -/
theorem clean_of {t : Table} {n : Nat} (wf : t.WF n)
    (h : ∀ i, i < n → ∀ (k : Nat) c x, t.cols[k]? = some c → (t.rowAt i)[k]? = some (some x) → ∀ j, c.info.bits ≤ j → bitOf x j = false) : t.Clean n := by
  intro c hc i hi j hj
  obtain ⟨k, hk, rfl⟩ := List.getElem_of_mem hc
  have hl : i < t.cols[k].data.rows.length := by rw [(wf.col _ (List.getElem_mem hk)).shape.1]; exact hi
  refine h i hi k t.cols[k] _ (List.getElem?_eq_getElem hk) ?_ j hj
  unfold Table.rowAt
  rw [List.getElem?_map, List.getElem?_eq_getElem hk, Option.map_some, List.getElem?_eq_getElem hl, List.getD_eq_getElem?_getD, List.getElem?_eq_getElem hl]
  rfl

/-- The rows of a clean table. -/
theorem clean_row {t : Table} {n : Nat} (hc : t.Clean n) {i : Nat} (hi : i < n) {k : Nat} {c : Column} {x : Row} (h : t.cols[k]? = some c)
    (hx : (t.rowAt i)[k]? = some (some x)) {j : Nat} (hj : c.info.bits ≤ j) : bitOf x j = false := by
  have := hc c (List.mem_of_getElem? h) i hi j hj
  unfold Table.rowAt at hx
  rw [List.getElem?_map, h, Option.map_some, Option.some.injEq] at hx
  rw [List.getD_eq_getElem?_getD, hx] at this
  exact this

theorem SharedTab.rowAt {t0 t1 t : Table} (h : SharedTab t0 t1 t) {i : Nat} (hi : i < t.rows) : t.rowAt i = (revRow t0 t1 i).map some := by
  rw [← sum_rowAt h.wf0 h.wf1 (by rw [h.info0, h.info1]) (by rw [h.len0, h.len1]) hi]
  unfold Table.rowAt sum
  rw [h.cols]

/-! ## Revealing -/

theorem reveal_content {t0 t1 t : Table} (h : SharedTab t0 t1 t) (hb : ∀ f ∈ t.isActive, f = 0 ∨ f = 1) :
    ∃ s, Table.reveal t0 t1 true = .ok s ∧ s.getColumnInfo = t.getColumnInfo ∧ tableRows s = content t := by
  have hi : t0.getColumnInfo = t1.getColumnInfo := by rw [h.info0, h.info1]
  have hl : t0.isActive.length = t1.isActive.length := by rw [h.len0, h.len1]
  obtain ⟨-, s, e, -, es, hrow⟩ := Table.C10_reveal h.wf0 h.wf1 hi hl (by
    intro i hi'
    rw [h.len0] at hi'
    rw [h.flag i hi']
    apply hb
    rw [List.getD_eq_getElem?_getD, List.getElem?_eq_getElem hi']
    exact List.getElem_mem _)
  refine ⟨s, e, by rw [es, h.info0], ?_⟩
  have hF : (List.range t.rows).filter (fun i => (Table.joined t0 t1 t.rows).isActive.getD i 0 == 1) = live t := by
    apply List.filter_congr
    intro i hi'
    have hi' := List.mem_range.mp hi'
    unfold Table.joined on
    simp only []
    by_cases hz : t0.isActive.length = 0
    · rw [if_pos hz]
      have : t.isActive = [] := List.length_eq_zero_iff.mp (by rw [← h.len0]; exact hz)
      simp [this, hi']
    · rw [if_neg hz, OmJoin.getD_range _ hi']
      have hn : t0.isActive.length = t.rows := h.wf0.flags.resolve_left (by intro h'; simp [h'] at hz)
      rw [h.flag i (by rw [← h.len0, hn]; exact hi')]
      have : t.isActive.isEmpty = false := by
        cases ht : t.isActive with
        | nil => have := h.len0; rw [ht] at this; exact absurd this hz
        | cons => rfl
      rw [this, Bool.false_or]
  rw [hF] at hrow
  by_cases hne : t0.cols = []
  · have hr0 : t.rows = 0 := h.wf0.empty hne
    have hs : s.cols = [] := by
      have : s.getColumnInfo = [] := by rw [es]; simp [Table.getColumnInfo, hne]
      simpa [Table.getColumnInfo] using this
    have : s.rows = 0 := by unfold Table.rows; rw [hs]
    unfold tableRows content live
    rw [this, hr0]
    rfl
  · have hs : s.cols ≠ [] := by
      intro hs
      have : s.getColumnInfo = [] := by simp [Table.getColumnInfo, hs]
      rw [es] at this
      exact hne (by simpa [Table.getColumnInfo] using this)
    rw [EndToEnd.rows_of_rowAt (F := live t) (f := fun i => revRow t0 t1 i) (z := t0.cols.map fun _ => none) hs (by simp) fun k => ?_]
    · unfold content
      apply List.map_congr_left
      intro i hi'
      exact (h.rowAt (List.mem_range.mp (List.mem_filter.mp hi').1)).symm
    · rw [hrow k]
      cases hk : (live t)[k]? with
      | none => rfl
      | some i =>
        have hm := List.mem_of_getElem? hk
        have hlt := List.mem_range.mp (List.mem_filter.mp hm).1
        exact joined_row h.wf0 h.wf1 hi (by
          rcases h.wf0.flags with h' | h'
          · exact Or.inl h'
          · exact Or.inr (by omega)) hlt

end Chain
end SecJoin
