import Verif.Join.EndToEndSpec
import Verif.Join.OmRemoveProps
import Verif.Table.JoinProps
/-!
# Lemmas for joins from tables to tables
-/
namespace SecJoin
namespace EndToEnd
open OmJoin (Query OneToMany SameQuery shown joinRows pairRow matchOf bind_inv)
open Extract (revRow)

/-- A column and its two shares of `n` rows. -/
structure SharedCol (n : Nat) (x x0 x1 : Column) : Prop where
  wf : x.WF n
  wf0 : x0.WF n
  wf1 : x1.WF n
  info0 : x0.info = x.info
  info1 : x1.info = x.info
  row : ∀ i, i < n → shown x0 x1 i = x.data.rows.getD i []

theorem get_ok {mem : List Table} {c : ColRef} {x : Column} : c.get mem = .ok x ↔ ∃ t, mem[c.tbl]? = some t ∧ t.cols[c.col]? = some x := by
  unfold ColRef.get
  constructor
  · intro h
    obtain ⟨t, h1, h2⟩ := bind_inv h
    exact ⟨t, Gmw.rd_ok_iff.mp h1, Gmw.rd_ok_iff.mp h2⟩
  · rintro ⟨t, h1, h2⟩
    rw [Gmw.rd_ok_iff.mpr h1, ok_bind, Gmw.rd_ok_iff.mpr h2]

theorem shareMem_tables {rnd : Nat → Nat → Nat → Nat → Byte} {rndF : Nat → Nat → Byte} : ∀ (i : Nat) (mem : List Table),
    (∀ t ∈ mem, t.WF t.rows ∧ t.Clean t.rows) → ∃ m0 m1, shareMem rnd rndF i mem = .ok (m0, m1) ∧
      ∀ (k : Nat) t, mem[k]? = some t → ∃ s0 s1, m0[k]? = some s0 ∧ m1[k]? = some s1 ∧ s0.WF t.rows ∧ s1.WF t.rows ∧
        s0.getColumnInfo = t.getColumnInfo ∧ s1.getColumnInfo = t.getColumnInfo ∧ Table.xcols s0 s1 = t.cols ∧
        s0.isActive.length = t.isActive.length ∧ s1.isActive.length = t.isActive.length ∧
        ∀ r, r < t.isActive.length → s0.isActive.getD r 0 ^^^ s1.isActive.getD r 0 = t.isActive.getD r 0
  | _, [], _ => ⟨[], [], rfl, by simp⟩
  | i, t :: ts, h => by
    obtain ⟨ht, hc⟩ := h t (by simp)
    obtain ⟨s0, s1, e, w0, w1, -, -, i0, i1, hl, -, hx⟩ := Table.C09_table ht hc (rnd i) (rndF i)
    obtain ⟨m0, m1, e', hr⟩ := shareMem_tables (rnd := rnd) (rndF := rndF) (i + 1) ts (fun u hu => h u (by simp [hu]))
    refine ⟨s0 :: m0, s1 :: m1, ?_, ?_⟩
    · simp only [shareMem]
      rw [e, ok_bind, e', ok_bind]
    · intro k u hk
      cases k with
      | zero =>
        simp only [List.getElem?_cons_zero, Option.some.injEq] at hk
        subst hk
        simp only [Table.share] at e
        obtain ⟨⟨c0, c1⟩, -, e⟩ := bind_inv e
        injection e with e
        injection e with e0 e1
        have hl1 : s0.isActive = [] ∨ s1.isActive.length = t.rows := by
          rw [← e1, ← e0]
          rcases ht.flags with h' | h'
          · left; simp [h']
          · right; simp [h']
        rw [(Table.reveal_ok w0 w1 (i0.trans i1.symm) hl1).2] at hx
        injection hx with hx
        injection hx with hfl hc
        refine ⟨s0, s1, rfl, rfl, w0, w1, i0, i1, hc, hl, by rw [← e1]; simp, fun r hr => ?_⟩
        rw [← e0, ← e1]
        simp [hr, ← BitVec.xor_assoc]
      | succ k => exact hr k u (by simpa using hk)

/-- The columns of shared tables. -/
theorem cols_ok {mem m0 m1 : List Table} (h : ∀ t ∈ mem, t.WF t.rows ∧ t.Clean t.rows)
    (ht : ∀ (k : Nat) t, mem[k]? = some t → ∃ s0 s1, m0[k]? = some s0 ∧ m1[k]? = some s1 ∧ s0.WF t.rows ∧ s1.WF t.rows ∧
      s0.getColumnInfo = t.getColumnInfo ∧ s1.getColumnInfo = t.getColumnInfo ∧ Table.xcols s0 s1 = t.cols) (c : ColRef) (x : Column)
    (hx : c.get mem = .ok x) : ∃ x0 x1, c.get m0 = .ok x0 ∧ c.get m1 = .ok x1 ∧ SharedCol (numRows mem c.tbl) x x0 x1 := by
  obtain ⟨t, h1, h2⟩ := get_ok.mp hx
  obtain ⟨s0, s1, g0, g1, w0, w1, i0, i1, hc⟩ := ht _ t h1
  have hn : numRows mem c.tbl = t.rows := by simp [numRows, h1]
  have hlt := (List.getElem?_eq_some_iff.mp h2).1
  have l0 : c.col < s0.cols.length := by
    have := congrArg List.length i0
    simp only [Table.getColumnInfo, List.length_map] at this
    omega
  have l1 : c.col < s1.cols.length := by
    have := congrArg List.length i1
    simp only [Table.getColumnInfo, List.length_map] at this
    omega
  have wx := (h t (List.mem_of_getElem? h1)).1.col x (List.mem_of_getElem? h2)
  have v0 := w0.col _ (List.getElem_mem l0)
  have v1 := w1.col _ (List.getElem_mem l1)
  rw [← hc] at h2
  unfold Table.xcols at h2
  rw [List.getElem?_zipWith, List.getElem?_eq_getElem l0, List.getElem?_eq_getElem l1] at h2
  injection h2 with h2
  have e1 : s1.cols[c.col].info = s0.cols[c.col].info := by
    have := congrArg (fun l => l[c.col]?) (i0.trans i1.symm)
    simp only [Table.getColumnInfo, List.getElem?_map, List.getElem?_eq_getElem l0, List.getElem?_eq_getElem l1, Option.map_some,
      Option.some.injEq] at this
    exact this.symm
  refine ⟨s0.cols[c.col], s1.cols[c.col], get_ok.mpr ⟨s0, g0, List.getElem?_eq_getElem l0⟩, get_ok.mpr ⟨s1, g1, List.getElem?_eq_getElem l1⟩, ?_⟩
  rw [hn]
  refine ⟨wx, v0, v1, by rw [← h2], by rw [← h2]; exact e1, fun i hi => ?_⟩
  rw [← h2]
  have := v1.shape
  rw [e1] at this
  exact (xm_getD v0.shape this hi).symm

theorem shareMem_ok {rnd : Nat → Nat → Nat → Nat → Byte} {rndF : Nat → Nat → Byte} {mem : List Table}
    (h : ∀ t ∈ mem, t.WF t.rows ∧ t.Clean t.rows) : ∃ m0 m1, shareMem rnd rndF 0 mem = .ok (m0, m1) ∧
      ∀ c x, ColRef.get mem c = .ok x → ∃ x0 x1, c.get m0 = .ok x0 ∧ c.get m1 = .ok x1 ∧ SharedCol (numRows mem c.tbl) x x0 x1 := by
  obtain ⟨m0, m1, e, ht⟩ := shareMem_tables (rnd := rnd) (rndF := rndF) 0 mem h
  refine ⟨m0, m1, e, cols_ok h fun k t hk => ?_⟩
  obtain ⟨s0, s1, g0, g1, w0, w1, i0, i1, hc, -⟩ := ht k t hk
  exact ⟨s0, s1, g0, g1, w0, w1, i0, i1, hc⟩

/-- The selected columns with their shares. -/
theorem sel_ok {mem m0 m1 : List Table}
    (h : ∀ c x, ColRef.get mem c = .ok x → ∃ x0 x1, c.get m0 = .ok x0 ∧ c.get m1 = .ok x1 ∧ SharedCol (numRows mem c.tbl) x x0 x1) :
    ∀ {sel : List ColRef} {cols : List Column}, mapRes (·.get mem) sel = .ok cols →
    ∃ xs : List (ColRef × Column × Column × Column), sel = xs.map (·.1) ∧ cols = xs.map (·.2.1) ∧
      mapRes (·.get m0) sel = .ok (xs.map (·.2.2.1)) ∧ mapRes (·.get m1) sel = .ok (xs.map (·.2.2.2)) ∧
      ∀ x ∈ xs, x.1.get mem = .ok x.2.1 ∧ SharedCol (numRows mem x.1.tbl) x.2.1 x.2.2.1 x.2.2.2
  | [], cols, e => by
    injection e with e; subst e
    exact ⟨[], rfl, rfl, rfl, rfl, by simp⟩
  | c :: sel, cols, e => by
    obtain ⟨x, h1, e⟩ := bind_inv e
    obtain ⟨ys, h2, e⟩ := bind_inv e
    injection e with e; subst e
    obtain ⟨x0, x1, g0, g1, hs⟩ := h c x h1
    obtain ⟨xs, e1, e2, e3, e4, hx⟩ := sel_ok h h2
    refine ⟨(c, x, x0, x1) :: xs, by simp [e1], by simp [e2], ?_, ?_, ?_⟩
    · simp only [mapRes]
      rw [g0, ok_bind, e3, ok_bind]
      rfl
    · simp only [mapRes]
      rw [g1, ok_bind, e4, ok_bind]
      rfl
    · intro y hy
      rcases List.mem_cons.mp hy with rfl | hy
      · exact ⟨h1, hs⟩
      · exact hx y hy

/-- The query of a party. -/
def queryOf (l : ColRef) (lk rk : Column) (f : ColRef × Column × Column × Column → Column) (xs : List (ColRef × Column × Column × Column)) : Query :=
  ⟨lk, rk, xs.map fun x => (x.1.tbl == l.tbl, f x)⟩

theorem mkQuery_ok {mem : List Table} {l r : ColRef} {lk rk : Column} {xs : List (ColRef × Column × Column × Column)}
    {f : ColRef × Column × Column × Column → Column} (hl : l.get mem = .ok lk) (hr : r.get mem = .ok rk)
    (hx : mapRes (·.get mem) (xs.map (·.1)) = .ok (xs.map f)) (hb : lk.info.bits = rk.info.bits)
    (ht : ∀ x ∈ xs, x.1.tbl = l.tbl ∨ x.1.tbl = r.tbl) : mkQuery mem l r (xs.map (·.1)) = .ok (queryOf l lk rk f xs) := by
  unfold mkQuery
  rw [hl, ok_bind, hr, ok_bind, hx, ok_bind]
  have : ((xs.map (·.1)).any fun c => c.tbl != l.tbl && c.tbl != r.tbl) = false := by
    rw [List.any_eq_false]
    intro c hc
    obtain ⟨x, hx, rfl⟩ := List.mem_map.mp hc
    rcases ht x hx with h | h <;> simp [h]
  rw [this, throwIf_false, ok_bind, hb, bne_self_eq_false, throwIf_false, ok_bind]
  unfold queryOf
  congr 2
  rw [List.zipWith_map, List.zipWith_self]

section
variable {mem : List Table} {l r : ColRef} {lk lk0 lk1 rk rk0 rk1 : Column} {xs : List (ColRef × Column × Column × Column)}

theorem sameQuery_of (hl : SharedCol (numRows mem l.tbl) lk lk0 lk1) (hr : SharedCol (numRows mem r.tbl) rk rk0 rk1)
    (hb : lk.info.bits = rk.info.bits) (ht : ∀ x ∈ xs, x.1.tbl = l.tbl ∨ x.1.tbl = r.tbl)
    (hx : ∀ x ∈ xs, SharedCol (numRows mem x.1.tbl) x.2.1 x.2.2.1 x.2.2.2) :
    SameQuery (numRows mem l.tbl) (numRows mem r.tbl) (queryOf l lk0 rk0 (·.2.2.1) xs) (queryOf l lk1 rk1 (·.2.2.2) xs) := by
  have a0 := hl.wf0.shape
  have a1 := hl.wf1.shape
  have b0 := hr.wf0.shape
  have b1 := hr.wf1.shape
  rw [hl.info0] at a0
  rw [hl.info1] at a1
  rw [hr.info0, ← hb] at b0
  rw [hr.info1, ← hb] at b1
  have hc : OmJoin.colBytes lk0 = divCeil lk.info.bits 8 := by unfold OmJoin.colBytes; rw [hl.info0]
  refine ⟨?_, ?_, ?_, ?_, ?_, ?_, ?_, ?_⟩
  · show Shape _ (OmJoin.colBytes lk0) _; rw [hc]; exact a0
  · show Shape _ (OmJoin.colBytes lk0) _; rw [hc]; exact a1
  · show Shape _ (OmJoin.colBytes lk0) _; rw [hc]; exact b0
  · show Shape _ (OmJoin.colBytes lk0) _; rw [hc]; exact b1
  · show lk1.info.bits = lk0.info.bits; rw [hl.info0, hl.info1]
  · show rk0.info.bits = lk0.info.bits; rw [hl.info0, hr.info0, hb]
  · show rk1.info.bits = lk0.info.bits; rw [hl.info0, hr.info1, hb]
  · show List.Forall₂ _ (xs.map _) (xs.map _)
    rw [List.forall₂_map_left_iff, List.forall₂_map_right_iff, List.forall₂_same]
    intro x hxm
    have hs := hx x hxm
    have hn : (if (x.1.tbl == l.tbl) = true then numRows mem l.tbl else numRows mem r.tbl) = numRows mem x.1.tbl := by
      rcases ht x hxm with h | h
      · simp [h]
      · rw [h]
        by_cases h' : r.tbl = l.tbl <;> simp [h']
    have s1 := hs.wf1.shape
    rw [hs.info1, ← hs.info0] at s1
    simp only [hn]
    exact ⟨trivial, by rw [hs.info0, hs.info1], hs.wf0.shape, s1⟩

theorem select_wf (ht : ∀ x ∈ xs, x.1.tbl = l.tbl ∨ x.1.tbl = r.tbl)
    {f : ColRef × Column × Column × Column → Column} (hx : ∀ x ∈ xs, (f x).WF (numRows mem x.1.tbl)) :
    ∀ a ∈ (queryOf l lk0 rk0 f xs).select, a.2.WF (if a.1 then numRows mem l.tbl else numRows mem r.tbl) := by
  intro a ha
  obtain ⟨x, hxm, rfl⟩ := List.mem_map.mp ha
  have hn : (if (x.1.tbl == l.tbl) = true then numRows mem l.tbl else numRows mem r.tbl) = numRows mem x.1.tbl := by
    rcases ht x hxm with h | h
    · simp [h]
    · rw [h]
      by_cases h' : r.tbl = l.tbl <;> simp [h']
  simp only [hn]
  exact hx x hxm

theorem pairRow_of (ht : ∀ x ∈ xs, x.1.tbl = l.tbl ∨ x.1.tbl = r.tbl)
    (hx : ∀ x ∈ xs, SharedCol (numRows mem x.1.tbl) x.2.1 x.2.2.1 x.2.2.2) {a b : Nat} (ha : a < numRows mem l.tbl) (hb : b < numRows mem r.tbl) :
    pairRow (queryOf l lk0 rk0 (·.2.2.1) xs) (queryOf l lk1 rk1 (·.2.2.2) xs) a b =
      xs.map fun x => x.2.1.data.rows.getD (if x.1.tbl = l.tbl then a else b) [] := by
  unfold pairRow queryOf
  simp only []
  rw [List.zipWith_map, List.zipWith_self]
  apply List.map_congr_left
  intro x hxm
  rw [← (hx x hxm).row]
  · simp
  · by_cases h : x.1.tbl = l.tbl
    · rw [if_pos h, h]; exact ha
    · rw [if_neg h, (ht x hxm).resolve_left h]; exact hb

end

/-! ## Revealing -/

theorem rows_of_rowAt {t : Table} {F : List Nat} {f : Nat → List Row} {z : List (Option Row)} (hne : t.cols ≠ []) (hz : ∀ x ∈ z, x = none)
    (h : ∀ k, t.rowAt k = match F[k]? with | some i => (f i).map some | none => z) : tableRows t = F.map fun i => (f i).map some := by
  obtain ⟨c, cs, hc⟩ : ∃ c cs, t.cols = c :: cs := by
    cases e : t.cols with
    | nil => exact absurd e hne
    | cons c cs => exact ⟨c, cs, rfl⟩
  have hr : t.rows = c.data.rows.length := by unfold Table.rows; rw [hc]
  have hlen : t.rows = F.length := by
    have key : ∀ k, k < c.data.rows.length ↔ k < F.length := by
      intro k
      have := h k
      unfold Table.rowAt at this
      rw [hc, List.map_cons] at this
      constructor
      · intro hk
        by_contra hf
        rw [List.getElem?_eq_none (l := F) (by omega), List.getElem?_eq_getElem hk] at this
        simp only [] at this
        have := hz (some c.data.rows[k]) (by rw [← this]; simp)
        cases this
      · intro hf
        by_contra hk
        rw [List.getElem?_eq_getElem hf, List.getElem?_eq_none (l := c.data.rows) (by omega)] at this
        simp only [] at this
        have : none ∈ (f F[k]).map some := by rw [← this]; simp
        simp at this
    rw [hr]
    have h1 := key c.data.rows.length
    have h2 := key F.length
    omega
  unfold tableRows
  rw [hlen]
  apply List.ext_getElem
  · simp
  · intro i h1 h2
    simp only [List.length_map, List.length_range] at h1
    simp only [List.getElem_map, List.getElem_range]
    rw [h i, List.getElem?_eq_getElem h1]

/-- The row of a revealed table. -/
theorem joined_row {t0 t1 : Table} {n i : Nat} (h0 : t0.WF n) (h1 : t1.WF n) (hab : t0.getColumnInfo = t1.getColumnInfo)
    (hf : t0.isActive = [] ∨ t1.isActive.length = n) (hi : i < n) : (Table.joined t0 t1 n).rowAt i = (revRow t0 t1 i).map some := by
  rw [Table.joined_eq h0 h1 hab hf]
  unfold Table.rowAt revRow Table.xcols
  simp only []
  apply List.ext_getElem
  · simp
  · intro j h2 h3
    simp only [List.length_map, List.length_zipWith, Nat.lt_min] at h2
    simp only [List.getElem_map, List.getElem_zipWith]
    have v0 := (h0.col _ (List.getElem_mem h2.1)).shape.1
    have v1 := (h1.col _ (List.getElem_mem h2.2)).shape.1
    unfold Table.xrows
    rw [List.getElem?_zipWith, List.getElem?_eq_getElem (by rw [v0]; exact hi), List.getElem?_eq_getElem (by rw [v1]; exact hi),
      List.getD_eq_getElem?_getD, List.getD_eq_getElem?_getD, List.getElem?_eq_getElem (by rw [v0]; exact hi),
      List.getElem?_eq_getElem (by rw [v1]; exact hi)]
    rfl

/-- Revealing the output of a join without its inactive rows. -/
theorem reveal_join {nL nR : Nat} {same : Nat → Nat → Prop} [DecidableRel same] {q0 q1 : Query} {t0 t1 : Table}
    (h : OneToMany nL nR same q0 q1 t0 t1) (hq : SameQuery nL nR q0 q1) (w0 : t0.WF nR) (w1 : t1.WF nR)
    (hi : t0.getColumnInfo = t1.getColumnInfo) (hne : t0.cols ≠ []) :
    ∃ s, Table.reveal t0 t1 true = .ok s ∧ s.getColumnInfo = t0.getColumnInfo ∧
      tableRows s = (joinRows nL nR same q0 q1).map fun x => x.map some := by
  have hflag : ∀ b, b < nR → (t0.isActive.getD b 0 ^^^ t1.isActive.getD b 0) = if (matchOf nL same b).isSome then 1 else 0 := by
    intro b hb
    cases hm : matchOf nL same b with
    | none => exact (h.miss b hb (OmJoin.matchOf_none hm)).1
    | some a =>
      obtain ⟨ha, hs, hf⟩ := OmJoin.matchOf_some hm
      exact (h.hit b hb a ha hs hf).1
  obtain ⟨-, s, e, -, es, hrow⟩ := Table.C10_reveal w0 w1 hi (by rw [h.rows0, h.rows1]) (by
    intro i hi'
    rw [h.rows0] at hi'
    rw [hflag i hi']
    by_cases hc : (matchOf nL same i).isSome <;> simp [hc])
  refine ⟨s, e, es, ?_⟩
  have hF : (List.range nR).filter (fun i => (Table.joined t0 t1 nR).isActive.getD i 0 == 1) =
      (List.range nR).filter fun i => (matchOf nL same i).isSome := by
    apply List.filter_congr
    intro i hi'
    have hi' := List.mem_range.mp hi'
    have : (Table.joined t0 t1 nR).isActive.getD i 0 = t0.isActive.getD i 0 ^^^ t1.isActive.getD i 0 := by
      unfold Table.joined
      simp only []
      rw [if_neg (by rw [h.rows0]; omega), OmJoin.getD_range _ hi']
    rw [this, hflag i hi']
    cases (matchOf nL same i).isSome <;> decide
  rw [hF] at hrow
  have hs : s.cols ≠ [] := by
    intro hs
    have : s.getColumnInfo = [] := by simp [Table.getColumnInfo, hs]
    rw [es] at this
    exact hne (by simpa [Table.getColumnInfo] using this)
  rw [rows_of_rowAt (F := (List.range nR).filter fun i => (matchOf nL same i).isSome) (f := fun i => revRow t0 t1 i)
    (z := t0.cols.map fun _ => none) hs (by simp) (fun k => ?_)]
  · unfold joinRows
    rw [List.map_filterMap]
    apply OmJoin.filterMap_filter_map
    intro b hb
    have hb := List.mem_range.mp hb
    cases hm : matchOf nL same b with
    | none => rfl
    | some a =>
      obtain ⟨ha, hs, hf⟩ := OmJoin.matchOf_some hm
      simp [h.row hq hb ha hs hf]
  · rw [hrow k]
    cases hk : ((List.range nR).filter fun i => (matchOf nL same i).isSome)[k]? with
    | none => rfl
    | some i =>
      have := List.mem_range.mp (List.mem_of_mem_filter (List.mem_of_getElem? hk))
      exact joined_row w0 w1 hi (Or.inr h.rows1) this

/-! ## Queries on the original tables -/

theorem mkQuery_inv {mem : List Table} {l r : ColRef} {sel : List ColRef} {q : Query} (h : mkQuery mem l r sel = .ok q) :
    ∃ cols, l.get mem = .ok q.leftKey ∧ r.get mem = .ok q.rightKey ∧ mapRes (·.get mem) sel = .ok cols ∧
      (∀ c ∈ sel, c.tbl = l.tbl ∨ c.tbl = r.tbl) ∧ q.leftKey.info.bits = q.rightKey.info.bits ∧
      q.select = List.zipWith (fun c x => (c.tbl == l.tbl, x)) sel cols := by
  unfold mkQuery at h
  obtain ⟨lk, h1, h⟩ := bind_inv h
  obtain ⟨rk, h2, h⟩ := bind_inv h
  obtain ⟨cols, h3, h⟩ := bind_inv h
  cases hb : (sel.any fun c => c.tbl != l.tbl && c.tbl != r.tbl) with
  | true => rw [hb, throwIf_true] at h; cases h
  | false =>
    rw [hb, throwIf_false, ok_bind] at h
    cases hc : (lk.info.bits != rk.info.bits) with
    | true => rw [hc, throwIf_true] at h; cases h
    | false =>
      rw [hc, throwIf_false, ok_bind] at h
      injection h with h
      subst h
      refine ⟨cols, h1, h2, h3, fun c hm => ?_, by simpa using hc, rfl⟩
      have := List.any_eq_false.mp hb c hm
      simp only [Bool.and_eq_true, bne_iff_ne, ne_eq, not_and, not_not] at this
      by_cases h : c.tbl = l.tbl
      · exact Or.inl h
      · exact Or.inr (this h)

theorem cell_of {mem : List Table} {c : ColRef} {x : Column} (h : c.get mem = .ok x) (i : Nat) : cell mem c i = x.data.rows[i]? := by
  obtain ⟨t, h1, h2⟩ := get_ok.mp h
  unfold cell
  rw [h1, Option.bind_eq_bind, Option.bind_some, h2, Option.bind_eq_bind, Option.bind_some]

theorem cell_getD {mem : List Table} {c : ColRef} {x : Column} (h : c.get mem = .ok x) {n : Nat} (hx : x.WF n) {i : Nat} (hi : i < n) :
    cell mem c i = some (x.data.rows.getD i []) := by
  rw [cell_of h, List.getElem?_eq_getElem (by rw [hx.shape.1]; exact hi), List.getD_eq_getElem?_getD,
    List.getElem?_eq_getElem (by rw [hx.shape.1]; exact hi)]
  rfl

theorem get_wf {mem : List Table} (hm : ∀ t ∈ mem, t.WF t.rows ∧ t.Clean t.rows) {c : ColRef} {x : Column} (h : c.get mem = .ok x) :
    x.WF (numRows mem c.tbl) ∧ ∀ i, i < numRows mem c.tbl → ∀ k, x.info.bits ≤ k → bitOf (x.data.rows.getD i []) k = false := by
  obtain ⟨t, h1, h2⟩ := get_ok.mp h
  have hn : numRows mem c.tbl = t.rows := by simp [numRows, h1]
  obtain ⟨a, b⟩ := hm t (List.mem_of_getElem? h1)
  rw [hn]
  exact ⟨a.col x (List.mem_of_getElem? h2), b x (List.mem_of_getElem? h2)⟩

section
variable {l : ColRef} {lk rk lk' rk' : Column} {f g : ColRef × Column × Column × Column → Column} {xs : List (ColRef × Column × Column × Column)}

theorem infos_of (h : ∀ x ∈ xs, (f x).info = (g x).info) :
    (queryOf l lk rk f xs).select.map (·.2.info) = (queryOf l lk' rk' g xs).select.map (·.2.info) := by
  unfold queryOf
  simp only [List.map_map]
  exact List.map_congr_left fun x hx => h x hx

theorem names_of (h : ∀ x ∈ xs, (f x).info = (g x).info) :
    (queryOf l lk rk f xs).select.map (·.2.info.name) = (queryOf l lk' rk' g xs).select.map (·.2.info.name) := by
  have := congrArg (List.map (·.name)) (infos_of (l := l) (lk := lk) (rk := rk) (lk' := lk') (rk' := rk') h)
  simp only [List.map_map] at this
  exact this

theorem flagByte_of (h : ∀ x ∈ xs, (f x).info = (g x).info) :
    OmJoin.flagByte (queryOf l lk rk f xs).select = OmJoin.flagByte (queryOf l lk' rk' g xs).select := by
  unfold OmJoin.flagByte OmJoin.leftCols queryOf
  simp only [List.filter_map, List.map_map]
  congr 1
  apply List.map_congr_left
  intro x hx
  show OmJoin.colBytes (f x) = OmJoin.colBytes (g x)
  unfold OmJoin.colBytes
  rw [h x (List.mem_of_mem_filter hx)]

theorem removeBytes_of (h : ∀ x ∈ xs, (f x).info = (g x).info) :
    OmJoin.removeBytes (queryOf l lk rk f xs).select = OmJoin.removeBytes (queryOf l lk' rk' g xs).select := by
  unfold OmJoin.removeBytes queryOf
  simp only [List.map_map]
  congr 2
  apply List.map_congr_left
  intro x hx
  show divCeil (f x).info.bits 8 = divCeil (g x).info.bits 8
  rw [h x hx]

end

end EndToEnd
end SecJoin
