import Verif.TableOps.WhereRemove
import Verif.TableOps.WhereProps
import Verif.TableOps.ExtractProps
/-!
# C36: the filter with removal of the inactive rows
-/
namespace SecJoin
namespace WhereT

open Gmw

/-! ## Lemmas -/

theorem initRemove_inv {junk : Nat} {old : List ColumnInfo} {rows : Nat} {columns : List ColumnInfo} {ks : List Nat} {c : Circuit}
    {w : Where} {b : Nat} (h : initRemove junk old rows columns ks c = .ok (w, b)) :
    init junk old rows columns ks c = .ok w ∧ b = 1 + Extract.infoBytes (columns.take ks.length) := by
  unfold initRemove at h
  cases hw : init junk old rows columns ks c with
  | error e => simp [hw, err_bind] at h
  | ok w' =>
    rw [hw, ok_bind] at h
    unfold removeBytes at h
    split at h
    · rw [ok_bind] at h
      injection h with h
      injection h with h1 h2
      exact ⟨by rw [h1], h2.symm⟩
    · simp [err_bind] at h

theorem wf_flags {t : Table} {n : Nat} (h : t.WF n) {f : List Byte} (hf : f.length = n) : (⟨f, t.cols⟩ : Table).WF n :=
  ⟨h.col, h.names, h.empty, .inr hf⟩

/-- The filter that succeeds on a table with the columns given to `init` has a predicate on all columns in order. -/
theorem inputs_range {junk rows : Nat} {columns : List ColumnInfo} {ks : List Nat} {c : Circuit} {w : Where} {t0 t1 : Table}
    {v : Nat → Nat → Bool} {r : Nat → Bool} {x : Table × Table} (hi : init junk [] rows columns ks c = .ok w)
    (ht : t0.getColumnInfo = columns) (hn : (columns.map (·.name)).Nodup) (hw : whereBoth w t0 t1 v r = .ok x) :
    ks = List.range columns.length := by
  by_contra h
  rw [C36_columns_false hi ht hn h] at hw
  cases hw

/-- The infos of the second party are those of the first. -/
theorem whereBoth_infos {w : Where} {t0 t1 : Table} {v : Nat → Nat → Bool} {r : Nat → Bool} {x : Table × Table}
    (hw : whereBoth w t0 t1 v r = .ok x) : t0.getColumnInfo = t1.getColumnInfo := by
  unfold whereBoth at hw
  cases h0 : setInputs w t0 with
  | error e => simp [h0, err_bind] at hw
  | ok a =>
    cases h1 : setInputs w t1 with
    | error e => simp [h0, h1, err_bind, ok_bind] at hw
    | ok b => exact (setInputs_inv h0).2.1.trans (setInputs_inv h1).2.1.symm

theorem byte_active (x : Byte) (h : x = 0 ∨ x = 1) : x.getLsbD 0 = true ↔ x = 1 := by
  rcases h with rfl | rfl <;> decide

/-! ## C36 -/

open Classical in
/-- C36: a filter set up to remove the inactive rows has enough of the permutation correlation whenever the filter itself
succeeds. The output has no flags and the columns of the input, and its revealed rows are, in some order, exactly those rows
that were active and satisfy the predicate. -/
theorem C36_remove {junk rows : Nat} {columns : List ColumnInfo} {ks : List Nat} {c : Circuit} {w : Where} {b : Nat}
    {t0 t1 : Table} {x : Table × Table} {v : Nat → Nat → Bool} {r : Nat → Bool} {p0 p1 : ComposedPerm} (hc : c.WF) (hp : c.Plain)
    (hi : initRemove junk [] rows columns ks c = .ok (w, b)) (ht : t0.getColumnInfo = columns) (ht0 : t0.WF rows) (ht1 : t1.WF rows)
    (hn : 0 < rows) (hv : ValidComposed rows (Extract.budget b) 0 (Extract.budget b) 0 p0 p1)
    (hw : whereBoth w t0 t1 v r = .ok x) (hf : ∀ i < rows, flag t0 t1 i = 0 ∨ flag t0 t1 i = 1) :
    ∃ u0 u1 m, whereRemove w t0 t1 v r p0 p1 = .ok (u0, u1) ∧ u0.isActive = [] ∧ u1.isActive = [] ∧ u0.WF m ∧ u1.WF m ∧
      u0.getColumnInfo = columns ∧ u1.getColumnInfo = columns ∧
      ((List.range m).map (Extract.revRow u0 u1)).Perm
        (((List.range rows).filter fun i => decide (flag t0 t1 i = 1 ∧ Holds c columns t0 t1 ks i)).map (Extract.revRow t0 t1)) := by
  obtain ⟨hi', hb⟩ := initRemove_inv hi
  have hnm : (columns.map (·.name)).Nodup := by
    rw [← ht, Table.getColumnInfo, List.map_map]; exact ht0.names
  have hk := inputs_range hi' ht hnm hw
  have hinf := whereBoth_infos hw
  have hrow : w.rows = rows := (init_inv hi').2.2.2.2.1
  obtain ⟨x0, x1⟩ := x
  obtain ⟨c0, c1, l0, l1, hfl⟩ := C36_partial hc hp hi' hw
  have hx0 : x0.WF rows := by
    have := wf_flags ht0 l0
    rw [← c0] at this
    exact this
  have hx1 : x1.WF rows := by
    have := wf_flags ht1 l1
    rw [← c1] at this
    exact this
  have i0 : x0.getColumnInfo = t0.getColumnInfo := by simp only [Table.getColumnInfo, c0]
  have i1 : x1.getColumnInfo = t1.getColumnInfo := by simp only [Table.getColumnInfo, c1]
  have hbb : 0 + 1 + Extract.infoBytes x0.getColumnInfo ≤ Extract.budget b := by
    rw [i0, ht, hb, hk, List.length_range, List.take_length]
    unfold Extract.budget divCeil
    omega
  obtain ⟨u0, u1, m, e, f0, f1, -, -, -, -, hperm, g0, g1, -, -⟩ :=
    Extract.C35_extract hv hn hx0 hx1 (by rw [i0, i1, hinf]) l0 l1 hbb hbb x0 x1
  refine ⟨u0, u1, m, ?_, f0, f1, (g0 (.inr rfl)).1, (g1 (.inr rfl)).1, ?_, ?_, ?_⟩
  · unfold whereRemove
    rw [hw, ok_bind]
    simp only [hrow]
    exact e
  · rw [(g0 (.inr rfl)).2, i0, ht]
  · rw [(g1 (.inr rfl)).2, i0, ht]
  · have hrev : Extract.revRow x0 x1 = Extract.revRow t0 t1 := by
      funext i
      simp only [Extract.revRow, c0, c1]
    have hfil : (List.range rows).filter (Extract.active x0 x1) =
        (List.range rows).filter fun i => decide (flag t0 t1 i = 1 ∧ Holds c columns t0 t1 ks i) := by
      apply List.filter_congr
      intro i hir
      rw [List.mem_range] at hir
      obtain ⟨a, d⟩ := hfl i hir (hf i hir)
      have ha := byte_active _ a
      rw [Bool.eq_iff_iff, decide_eq_true_iff]
      exact ha.trans d
    rw [hrev, hfil] at hperm
    exact hperm

/-- C36: tables with flags for every row and a predicate on all columns are accepted with removal too. -/
theorem C36_remove_accepted (junk n : Nat) (c : Circuit) (hc : c.WF) (hp : c.Plain) (ho : c.outputs.map List.length = [1])
    (t0 t1 : Table) (ht0 : t0.WF n) (ht1 : t1.WF n) (he : t0.cols.map (·.info) = t1.cols.map (·.info))
    (hci : t0.cols.map (·.info.bits) = c.inputs.map List.length) (hpos : ∀ x ∈ t0.cols, 0 < x.info.bits)
    (hf0 : t0.isActive.length = n) (hf1 : t1.isActive.length = n) (v : Nat → Nat → Bool) (r : Nat → Bool) :
    ∃ w u, initRemove junk [] n t0.getColumnInfo (List.range t0.cols.length) c = .ok (w, 1 + Extract.infoBytes t0.getColumnInfo) ∧
      whereBoth w t0 t1 v r = .ok u := by
  obtain ⟨w, u, a, d⟩ := C36_accepted junk n c hc hp ho t0 t1 ht0 ht1 he hci hpos hf0 hf1 v r
  refine ⟨w, u, ?_, d⟩
  unfold initRemove removeBytes
  rw [show init junk [] n t0.getColumnInfo (List.range t0.cols.length) c = .ok w from a, ok_bind, if_pos (by simp [Table.getColumnInfo]), ok_bind]
  rw [List.take_of_length_le (by simp [Table.getColumnInfo])]

/-- C36 fails with removal for tables without rows: they are accepted by the filter, but the removal refuses them. -/
theorem C36_remove_empty_false {junk W o W' o' : Nat} {columns : List ColumnInfo} {ks : List Nat} {c : Circuit} {w : Where}
    {t0 t1 : Table} {v : Nat → Nat → Bool} {r : Nat → Bool} {p0 p1 : ComposedPerm} (hc : c.WF) (hp : c.Plain)
    (hi : init junk [] 0 columns ks c = .ok w) (ht0 : t0.WF 0) (ht1 : t1.WF 0) {x : Table × Table}
    (hv : ValidComposed 0 W o W' o' p0 p1) (hw : whereBoth w t0 t1 v r = .ok x) :
    whereRemove w t0 t1 v r p0 p1 = .error .throw := by
  obtain ⟨x0, x1⟩ := x
  obtain ⟨c0, c1, l0, l1, -⟩ := C36_partial hc hp hi hw
  have hinf := whereBoth_infos hw
  have hx0 : x0.WF 0 := by
    have := wf_flags ht0 l0
    rw [← c0] at this
    exact this
  have hx1 : x1.WF 0 := by
    have := wf_flags ht1 l1
    rw [← c1] at this
    exact this
  unfold whereRemove
  rw [hw, ok_bind]
  simp only [(init_inv hi).2.2.2.2.1]
  refine Extract.C35_refused hv hx0 hx1 ?_ x0 x1 (.inl rfl)
  simp only [Table.getColumnInfo] at hinf ⊢
  rw [c0, c1, hinf]

/-- C36 fails with removal for a predicate with more inputs than the table has columns, as one that uses a column twice: the
set-up that succeeds without removal reads past the end of the columns. -/
theorem C36_remove_init_false {junk rows : Nat} {old columns : List ColumnInfo} {ks : List Nat} {c : Circuit} {w : Where}
    (hi : init junk old rows columns ks c = .ok w) :
    initRemove junk old rows columns ks c = .error .ub ↔ columns.length < ks.length := by
  unfold initRemove removeBytes
  rw [hi, ok_bind]
  by_cases h : ks.length ≤ columns.length
  · rw [if_pos h, ok_bind]
    constructor
    · intro e; cases e
    · intro e; omega
  · rw [if_neg h]
    exact ⟨fun _ => by omega, fun _ => rfl⟩

/-! ## Cases -/

/-- The hypotheses of `C36_remove` are met, with one row kept of three. -/
example : ∃ w b p0 p1 x, initRemove 7 [] 3 (exTable 0 0 0 []).getColumnInfo [0, 1] Gmw.demo = .ok (w, b) ∧
    ValidComposed 3 (Extract.budget b) 0 (Extract.budget b) 0 p0 p1 ∧
    whereBoth w (exTable 3 2 1 [1, 0, 1]) (exTable 0 0 0 [0, 0, 0]) (fun _ _ => true) (fun i => i = 1) = .ok x ∧
    (List.range 3).map (flag x.1 x.2) = [1, 0, 0] := by
  obtain ⟨p0, p1, h, -⟩ := exComposed
  exact ⟨_, _, p0, p1, _, rfl, h, rfl, by decide +kernel⟩

/-- A predicate that uses the only column twice: accepted without removal. -/
def twice : Circuit := ⟨[[0], [1]], [[2]], 3, [⟨2, 0, 1, .and⟩], fun _ => .plain⟩

example : (∃ w, init 7 [] 3 [⟨[97], .int, 1⟩] [0, 0] twice = .ok w) ∧ initRemove 7 [] 3 [⟨[97], .int, 1⟩] [0, 0] twice = .error .ub :=
  ⟨⟨_, rfl⟩, rfl⟩

/-- The tables of `C36_remove_empty_false` are accepted by the filter. -/
example : ∃ w x, init 7 [] 0 [⟨[97], .int, 1⟩, ⟨[98], .int, 1⟩] [0, 1] twice = .ok w ∧
    whereBoth w ⟨[], [⟨⟨[97], .int, 1⟩, ⟨1, 1, []⟩⟩, ⟨⟨[98], .int, 1⟩, ⟨1, 1, []⟩⟩]⟩
      ⟨[], [⟨⟨[97], .int, 1⟩, ⟨1, 1, []⟩⟩, ⟨⟨[98], .int, 1⟩, ⟨1, 1, []⟩⟩]⟩ (fun _ _ => true) (fun _ => true) = .ok x :=
  ⟨_, _, rfl, rfl⟩

end WhereT
end SecJoin
