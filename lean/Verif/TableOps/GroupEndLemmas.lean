import Verif.TableOps.GroupEndSpec
import Verif.TableOps.GroupByGmwProps
import Verif.Join.EndToEndProps
import Verif.Table.AvgProps
/-!
# Lemmas for the group-by from tables to tables
-/
namespace SecJoin
namespace GroupEnd
open EndToEnd (ColRef shareMem shareMem_tables shareMem_ok sel_ok SharedCol numRows tableRows rows_of_rowAt joined_row get_ok get_wf sel_pairs activeRows)
open GroupBy (Inp SameInp)
open OmJoin (shown colBytes bind_inv)
open Extract (revRow)

/-! ## Revealing -/

/-- Revealing a table without its inactive rows. -/
theorem reveal_active {n : Nat} {t0 t1 : Table} {P : Nat → Bool} (w0 : t0.WF n) (w1 : t1.WF n) (hi : t0.getColumnInfo = t1.getColumnInfo)
    (hne : t0.cols ≠ []) (l0 : t0.isActive.length = n) (l1 : t1.isActive.length = n)
    (hf : ∀ i, i < n → t0.isActive.getD i 0 ^^^ t1.isActive.getD i 0 = if P i then 1 else 0) :
    ∃ s, Table.reveal t0 t1 true = .ok s ∧ s.getColumnInfo = t0.getColumnInfo ∧
      tableRows s = ((List.range n).filter P).map fun i => (revRow t0 t1 i).map some := by
  obtain ⟨-, s, e, -, es, hrow⟩ := Table.C10_reveal w0 w1 hi (by rw [l0, l1]) (by
    intro i hi'
    rw [l0] at hi'
    rw [hf i hi']
    by_cases hc : P i <;> simp [hc])
  refine ⟨s, e, es, ?_⟩
  have hF : (List.range n).filter (fun i => (Table.joined t0 t1 n).isActive.getD i 0 == 1) = (List.range n).filter P := by
    apply List.filter_congr
    intro i hi'
    have hi' := List.mem_range.mp hi'
    have : (Table.joined t0 t1 n).isActive.getD i 0 = t0.isActive.getD i 0 ^^^ t1.isActive.getD i 0 := by
      unfold Table.joined
      simp only []
      rw [if_neg (by rw [l0]; omega), OmJoin.getD_range _ hi']
    rw [this, hf i hi']
    cases P i <;> decide
  rw [hF] at hrow
  have hs : s.cols ≠ [] := by
    intro hs
    have : s.getColumnInfo = [] := by simp [Table.getColumnInfo, hs]
    rw [es] at this
    exact hne (by simpa [Table.getColumnInfo] using this)
  refine rows_of_rowAt (F := (List.range n).filter P) (f := fun i => revRow t0 t1 i) (z := t0.cols.map fun _ => none) hs (by simp) fun k => ?_
  rw [hrow k]
  cases hk : ((List.range n).filter P)[k]? with
  | none => rfl
  | some i =>
    have hm := List.mem_of_getElem? hk
    rw [List.mem_filter, List.mem_range] at hm
    exact joined_row w0 w1 hi (Or.inr l1) hm.1

/-! ## The inputs of the parties -/

theorem mkInp_inv {mem : List Table} {g : ColRef} {avg : List ColRef} {i : Inp} (h : mkInp mem g avg = .ok i) :
    g.get mem = .ok i.key ∧ mapRes (·.get mem) avg = .ok i.avg ∧ (∀ c ∈ avg, c.tbl = g.tbl) ∧ ∃ t, mem[g.tbl]? = some t ∧ i.act = t.isActive := by
  unfold mkInp at h
  obtain ⟨t, h1, h⟩ := bind_inv h
  obtain ⟨key, h2, h⟩ := bind_inv h
  obtain ⟨cols, h3, h⟩ := bind_inv h
  obtain ⟨_, h4, h⟩ := bind_inv h
  injection h with h
  subst h
  refine ⟨h2, h3, fun c hc => ?_, t, Gmw.rd_ok_iff.mp h1, rfl⟩
  unfold throwIf at h4
  split at h4
  · cases h4
  · rename_i hn
    by_contra hne
    exact hn (List.any_eq_true.mpr ⟨c, hc, by simpa using hne⟩)

theorem mkInp_ok {mem : List Table} {g : ColRef} {avg : List ColRef} {key : Column} {cols : List Column} {t : Table}
    (h1 : mem[g.tbl]? = some t) (h2 : g.get mem = .ok key) (h3 : mapRes (·.get mem) avg = .ok cols) (h4 : ∀ c ∈ avg, c.tbl = g.tbl) :
    mkInp mem g avg = .ok ⟨key, cols, t.isActive⟩ := by
  unfold mkInp
  rw [Gmw.rd_ok_iff.mpr h1, ok_bind, h2, ok_bind, h3, ok_bind]
  have : (avg.any fun c => c.tbl != g.tbl) = false := by
    rw [List.any_eq_false]
    intro c hc
    simp [h4 c hc]
  rw [this, throwIf_false, ok_bind]

/-- Both parties' inputs, of tables that are shared. -/
theorem setup_of {mem m0 m1 : List Table} {g : ColRef} {avg : List ColRef} {i : Inp}
    (hs : ∀ c x, ColRef.get mem c = .ok x → ∃ x0 x1, c.get m0 = .ok x0 ∧ c.get m1 = .ok x1 ∧ SharedCol (numRows mem c.tbl) x x0 x1)
    (hs' : ∀ (k : Nat) t, mem[k]? = some t → ∃ s0 s1, m0[k]? = some s0 ∧ m1[k]? = some s1 ∧ s0.isActive.length = t.isActive.length ∧
      s1.isActive.length = t.isActive.length ∧ ∀ r, r < t.isActive.length → s0.isActive.getD r 0 ^^^ s1.isActive.getD r 0 = t.isActive.getD r 0)
    (hi : mkInp mem g avg = .ok i) :
    ∃ i0 i1, mkInp m0 g avg = .ok i0 ∧ mkInp m1 g avg = .ok i1 ∧
      SharedCol (numRows mem g.tbl) i.key i0.key i1.key ∧
      (∃ xs : List (Column × Column × Column), i.avg = xs.map (·.1) ∧ i0.avg = xs.map (·.2.1) ∧ i1.avg = xs.map (·.2.2) ∧
        ∀ x ∈ xs, SharedCol (numRows mem g.tbl) x.1 x.2.1 x.2.2) ∧
      i0.act.length = i.act.length ∧ i1.act.length = i.act.length ∧
      ∀ r, r < i.act.length → i0.act.getD r 0 ^^^ i1.act.getD r 0 = i.act.getD r 0 := by
  obtain ⟨h1, h2, h3, t, h4, h5⟩ := mkInp_inv hi
  obtain ⟨s0, s1, g0, g1, l0, l1, hf⟩ := hs' _ t h4
  obtain ⟨k0, k1, a0, a1, hk⟩ := hs g _ h1
  obtain ⟨xs, rfl, hc, x0, x1, hx⟩ := sel_ok hs h2
  refine ⟨_, _, mkInp_ok g0 a0 x0 h3, mkInp_ok g1 a1 x1 h3, hk, ⟨xs.map (·.2), ?_, ?_, ?_, ?_⟩, ?_, ?_, ?_⟩
  · rw [hc, List.map_map]; rfl
  · rw [List.map_map]; rfl
  · rw [List.map_map]; rfl
  · intro x hxm
    obtain ⟨y, hy, rfl⟩ := List.mem_map.mp hxm
    have := (hx y hy).2
    rw [h3 y.1 (List.mem_map.mpr ⟨y, hy, rfl⟩)] at this
    exact this
  · rw [h5]; exact l0
  · rw [h5]; exact l1
  · rw [h5]; exact hf

/-- Both parties' inputs after the sharing. -/
theorem setup {mem : List Table} {g : ColRef} {avg : List ColRef} {i : Inp} (hm : ∀ t ∈ mem, t.WF t.rows ∧ t.Clean t.rows)
    (hi : mkInp mem g avg = .ok i) (rnd : Nat → Nat → Nat → Nat → Byte) (rndF : Nat → Nat → Byte) :
    ∃ m0 m1 i0 i1, shareMem rnd rndF 0 mem = .ok (m0, m1) ∧ mkInp m0 g avg = .ok i0 ∧ mkInp m1 g avg = .ok i1 ∧
      SharedCol (numRows mem g.tbl) i.key i0.key i1.key ∧
      (∃ xs : List (Column × Column × Column), i.avg = xs.map (·.1) ∧ i0.avg = xs.map (·.2.1) ∧ i1.avg = xs.map (·.2.2) ∧
        ∀ x ∈ xs, SharedCol (numRows mem g.tbl) x.1 x.2.1 x.2.2) ∧
      i0.act.length = i.act.length ∧ i1.act.length = i.act.length ∧
      ∀ r, r < i.act.length → i0.act.getD r 0 ^^^ i1.act.getD r 0 = i.act.getD r 0 := by
  obtain ⟨m0, m1, e, hs'⟩ := shareMem_tables (rnd := rnd) (rndF := rndF) 0 mem hm
  obtain ⟨i0, i1, h⟩ := setup_of (m0 := m0) (m1 := m1) (EndToEnd.cols_ok hm fun k t hk => by
    obtain ⟨s0, s1, g0, g1, w0, w1, i0, i1, hc, -⟩ := hs' k t hk
    exact ⟨s0, s1, g0, g1, w0, w1, i0, i1, hc⟩) (fun k t hk => by
    obtain ⟨s0, s1, g0, g1, -, -, -, -, -, h⟩ := hs' k t hk
    exact ⟨s0, s1, g0, g1, h⟩) hi
  exact ⟨m0, m1, i0, i1, e, h⟩

section
variable {n : Nat} {i i0 i1 : Inp} {xs : List (Column × Column × Column)}

theorem sameInp_of (hk : SharedCol n i.key i0.key i1.key) (h0 : i0.avg = xs.map (·.2.1)) (h1 : i1.avg = xs.map (·.2.2))
    (hx : ∀ x ∈ xs, SharedCol n x.1 x.2.1 x.2.2) (l0 : i0.act.length = n) (l1 : i1.act.length = n) : SameInp n i0 i1 := by
  have hc : colBytes i0.key = divCeil i.key.info.bits 8 := by unfold colBytes; rw [hk.info0]
  have a0 := hk.wf0.shape
  have a1 := hk.wf1.shape
  rw [hk.info0] at a0
  rw [hk.info1] at a1
  refine ⟨by rw [hc]; exact a0, by rw [hc]; exact a1, by rw [hk.info0, hk.info1], l0, l1, ?_⟩
  rw [h0, h1, List.forall₂_map_left_iff, List.forall₂_map_right_iff, List.forall₂_same]
  intro x hxm
  have hs := hx x hxm
  have s1 := hs.wf1.shape
  rw [hs.info1, ← hs.info0] at s1
  exact ⟨by rw [hs.info0, hs.info1], hs.wf0.shape, s1⟩

/-- The flag of a row, for flags that are bits. -/
theorem on_eq (hl : i.act.length = n) (h01 : ∀ f ∈ i.act, f = 0 ∨ f = 1) (hf : ∀ r, r < i.act.length → i0.act.getD r 0 ^^^ i1.act.getD r 0 = i.act.getD r 0)
    {r : Nat} (hr : r < n) : GroupBy.isAct i0 i1 r = on i r := by
  unfold GroupBy.isAct on
  rw [hf r (by omega)]
  have hne : i.act.isEmpty = false := by
    cases h : i.act with
    | nil => rw [h] at hl; simp at hl; omega
    | cons => rfl
  rw [hne, Bool.false_or]
  have hm : i.act.getD r 0 ∈ i.act := by
    rw [List.getD_eq_getElem?_getD, List.getElem?_eq_getElem (by omega)]
    exact List.getElem_mem _
  rcases h01 _ hm with h | h <;> rw [h] <;> decide

theorem same_key (a r : Nat) : decide (i.key.data.rows.getD a [] = i.key.data.rows.getD r []) = (keyAt i a == keyAt i r) := by
  rw [Bool.eq_iff_iff, decide_eq_true_iff, beq_iff_eq]; rfl

theorem members_eq (hk : SharedCol n i.key i0.key i1.key) (hon : ∀ r, r < n → GroupBy.isAct i0 i1 r = on i r) {r : Nat} (hr : r < n) :
    GroupBy.members n i0 i1 r = members i r := by
  unfold GroupBy.members members
  rw [hk.wf.shape.1]
  apply List.filter_congr
  intro a ha
  have ha := List.mem_range.mp ha
  rw [hon a ha, hk.row a ha, hk.row r hr, same_key]

theorem first_eq (hk : SharedCol n i.key i0.key i1.key) (hon : ∀ r, r < n → GroupBy.isAct i0 i1 r = on i r) {r : Nat} (hr : r < n) :
    GroupBy.isHead i0 i1 r = first i r := by
  unfold GroupBy.isHead first
  rw [hon r hr]
  congr 1
  rw [Bool.eq_iff_iff, List.all_eq_true, List.all_eq_true]
  have : ∀ a ∈ List.range r, (!(GroupBy.isAct i0 i1 a && decide (shown i0.key i1.key a = shown i0.key i1.key r))) =
      !(on i a && keyAt i a == keyAt i r) := by
    intro a ha
    have ha := List.mem_range.mp ha
    rw [hon a (by omega), hk.row a (by omega), hk.row r hr, same_key]
  constructor
  · intro h a ha; rw [← this a ha]; exact h a ha
  · intro h a ha; rw [this a ha]; exact h a ha

/-- A sum in the bytes of a column. -/
theorem cell_mod {bits v : Nat} (hb : bits % 8 = 0) : cellOf (divCeil bits 8) (v % 2 ^ bits) = some (GroupBy.leBytes (divCeil bits 8) v) := by
  show some (GroupBy.natBytes _ _) = _
  rw [GroupBy.natBytes_eq]
  have h : 2 ^ bits = 256 ^ divCeil bits 8 := by
    rw [show (256 : Nat) = 2 ^ 8 from rfl, ← Nat.pow_mul]
    congr 1
    unfold divCeil
    omega
  rw [h, GroupBy.leBytes_mod]

theorem row_eq (hk : SharedCol n i.key i0.key i1.key) (hi : i.avg = xs.map (·.1)) (h0 : i0.avg = xs.map (·.2.1)) (h1 : i1.avg = xs.map (·.2.2))
    (hx : ∀ x ∈ xs, SharedCol n x.1 x.2.1 x.2.2) (h8 : ∀ c ∈ i.avg, c.info.bits % 8 = 0)
    (hon : ∀ r, r < n → GroupBy.isAct i0 i1 r = on i r) {r : Nat} (hr : r < n) :
    (GroupBy.groupRow n i0 i1 r).map some = rowOf i r := by
  unfold GroupBy.groupRow rowOf
  rw [members_eq hk hon hr, List.map_cons, List.map_append, hk.row r hr]
  congr 1
  congr 1
  · rw [h0, h1, hi, List.zipWith_map, List.zipWith_self, List.map_map, List.map_map]
    apply List.map_congr_left
    intro x hxm
    have hs := hx x hxm
    simp only [Function.comp]
    rw [cell_mod (h8 x.1 (by rw [hi]; exact List.mem_map.mpr ⟨x, hxm, rfl⟩))]
    have hc : colBytes x.2.1 = divCeil x.1.info.bits 8 := by unfold colBytes; rw [hs.info0]
    rw [hc]
    congr 3
    apply List.map_congr_left
    intro a ha
    have ha := List.mem_range.mp (List.mem_filter.mp ha).1
    rw [hk.wf.shape.1] at ha
    rw [hs.row a ha]
    exact (leValue_eq _).symm
  · rw [List.map_cons, List.map_nil]
    congr 1
    show _ = some (GroupBy.natBytes _ _)
    rw [GroupBy.natBytes_eq]

theorem infos_eq {j : Inp} (hk : j.key.info = i.key.info) (ha : j.avg.map (·.info) = i.avg.map (·.info)) : GroupBy.outInfo j = infos i := by
  unfold GroupBy.outInfo infos
  rw [List.map_cons, List.map_append]
  congr 1
  · unfold colBytes; rw [hk]
  · congr 1
    have : ∀ l : List Column, (l.map fun c => (⟨c.info.name, c.info.type, colBytes c * 8⟩ : ColumnInfo)) =
        (l.map (·.info)).map fun x => ⟨x.name, x.type, divCeil x.bits 8 * 8⟩ := by
      intro l; rw [List.map_map]; rfl
    rw [this, ha, List.map_map]
    rfl

theorem sizes_eq {j : Inp} (ha : j.avg.map (·.info) = i.avg.map (·.info)) : GroupBy.sizes j = GroupBy.sizes i := by
  have : ∀ l : List Column, (l.map fun c => c.info.bits) = (l.map (·.info)).map (·.bits) := by
    intro l; rw [List.map_map]; rfl
  unfold GroupBy.sizes
  rw [this, this, ha]

theorem dataBits_eq {j : Inp} (hk : j.key.info = i.key.info) (ha : j.avg.map (·.info) = i.avg.map (·.info)) (b : Nat) :
    GroupBy.dataBits j b = GroupBy.dataBits i b := by
  have : ∀ l : List Column, l.map colBytes = (l.map (·.info)).map fun x => divCeil x.bits 8 := by
    intro l; rw [List.map_map]; rfl
  unfold GroupBy.dataBits
  first
    | rw [this, this, ha, hk]
    | (unfold GroupBy.flagByte GroupBy.sumBytes; rw [this, this, ha]; unfold colBytes; rw [hk])

end

/-! ## The plaintext average -/

theorem mapRes_congr {α β : Type} {f g : α → Res β} : ∀ {l : List α}, (∀ x ∈ l, f x = g x) → mapRes f l = mapRes g l
  | [], _ => rfl
  | a :: l, h => by
    simp only [mapRes]
    rw [h a (by simp), mapRes_congr fun x hx => h x (by simp [hx])]

theorem mapRes_at {α β : Type} {f : α → Res β} : ∀ {l : List α} {r : List β}, mapRes f l = .ok r →
    r.length = l.length ∧ ∀ i (h : i < l.length) (h' : i < r.length), f l[i] = .ok r[i]
  | [], r, h => by
    cases h
    exact ⟨rfl, fun i h => by simp at h⟩
  | a :: l, r, h => by
    unfold mapRes at h
    obtain ⟨b, h1, h⟩ := bind_inv h
    obtain ⟨bs, h2, h⟩ := bind_inv h
    injection h with h
    subst h
    obtain ⟨h3, h4⟩ := mapRes_at h2
    refine ⟨by simp [h3], fun i hi hi' => ?_⟩
    cases i with
    | zero => exact h1
    | succ i => exact h4 i (by simpa using hi) (by simpa using hi')

/-- A column permuted in place. -/
theorem permCol_ok {p : Perm} {mem : List Table} {c : ColRef} {x y : Column} (hx : c.get mem = .ok x) (hy : Table.permuteBytes p .regular x = .ok y) :
    ∃ mem', permCol p mem c = .ok mem' ∧ c.get mem' = .ok y ∧ (∀ d, d ≠ c → d.get mem' = d.get mem) ∧ mem'.length = mem.length ∧
      ∀ k : Nat, mem'[k]?.map Table.isActive = mem[k]?.map Table.isActive := by
  obtain ⟨t, h1, h2⟩ := get_ok.mp hx
  have l1 := (List.getElem?_eq_some_iff.mp h1).1
  have l2 := (List.getElem?_eq_some_iff.mp h2).1
  refine ⟨mem.set c.tbl { t with cols := t.cols.set c.col y }, ?_, ?_, ?_, by simp, ?_⟩
  · unfold permCol
    rw [Gmw.rd_ok_iff.mpr h1, ok_bind, Gmw.rd_ok_iff.mpr h2, ok_bind, hy, ok_bind]
  · exact get_ok.mpr ⟨{ t with cols := t.cols.set c.col y }, by simp [l1], by simp [l2]⟩
  · intro d hd
    unfold ColRef.get
    by_cases ht : d.tbl = c.tbl
    · have hc : d.col ≠ c.col := by
        intro hc
        apply hd
        cases d; cases c
        simp only at ht hc
        rw [ht, hc]
      rw [ht, Gmw.rd_ok_iff.mpr h1, ok_bind, show rd (mem.set c.tbl { t with cols := t.cols.set c.col y }) c.tbl = .ok { t with cols := t.cols.set c.col y } from Gmw.rd_ok_iff.mpr (by simp [l1]), ok_bind]
      unfold rd
      simp only []
      rw [List.getElem?_set_ne (Ne.symm hc)]
    · unfold rd
      rw [List.getElem?_set_ne (Ne.symm ht)]
  · intro k
    by_cases hk : k = c.tbl
    · subst hk
      rw [List.getElem?_set_self l1, h1]; rfl
    · rw [List.getElem?_set_ne (Ne.symm hk)]

theorem permCols_ok {p : Perm} : ∀ {cs : List ColRef} {mem : List Table} {xs ys : List Column}, cs.Nodup → mapRes (·.get mem) cs = .ok xs →
    mapRes (Table.permuteBytes p .regular) xs = .ok ys →
    ∃ mem', permCols p mem cs = .ok mem' ∧ mapRes (·.get mem') cs = .ok ys ∧ (∀ d, d ∉ cs → d.get mem' = d.get mem) ∧ mem'.length = mem.length ∧
      ∀ k : Nat, mem'[k]?.map Table.isActive = mem[k]?.map Table.isActive
  | [], mem, xs, ys, _, hx, hy => by
    cases hx
    cases hy
    exact ⟨mem, rfl, rfl, fun _ _ => rfl, rfl, fun _ => rfl⟩
  | c :: cs, mem, xs, ys, hn, hx, hy => by
    unfold mapRes at hx
    obtain ⟨x, h1, hx⟩ := bind_inv hx
    obtain ⟨xs', h2, hx⟩ := bind_inv hx
    injection hx with hx
    subst hx
    unfold mapRes at hy
    obtain ⟨y, g1, hy⟩ := bind_inv hy
    obtain ⟨ys', g2, hy⟩ := bind_inv hy
    injection hy with hy
    subst hy
    obtain ⟨hc, hn⟩ := List.nodup_cons.mp hn
    obtain ⟨m1, e1, a1, b1, l1, f1⟩ := permCol_ok h1 g1
    have h2' : mapRes (·.get m1) cs = .ok xs' := by
      rw [← h2]
      exact mapRes_congr fun d hd => b1 d fun h => hc (h ▸ hd)
    obtain ⟨m2, e2, a2, b2, l2, f2⟩ := permCols_ok hn h2' g2
    refine ⟨m2, ?_, ?_, ?_, by rw [l2, l1], fun k => by rw [f2, f1]⟩
    · unfold permCols
      rw [e1, ok_bind, e2]
    · simp only [mapRes]
      rw [b2 c hc, a1, ok_bind, a2, ok_bind]
    · intro d hd
      rw [b2 d fun h => hd (by simp [h]), b1 d fun h => hd (by simp [h])]

/-- A column whose rows are permuted. -/
def sorted (p : List Nat) (x : Column) : Column :=
  { x with data := ⟨divCeil x.info.bits 8 * 8, divCeil x.info.bits 8, gather p x.data.rows⟩ }

theorem outColumns_congr {n : Nat} {p : List Nat} {key : Column} {avg : List Column} :
    Table.outColumns n (sorted p key) (avg.map (sorted p)) = Table.outColumns n key avg := by
  unfold Table.outColumns
  rw [List.map_map]
  rfl

theorem acc0_congr {p : List Nat} {avg : List Column} : Table.acc0 (avg.map (sorted p)) = Table.acc0 avg := by
  unfold Table.acc0
  rw [List.map_map]
  rfl

/-- `average` called on table `dst`: the result of `Table.average` there, and the columns it is given permuted. -/
theorem averageMem_ok {mem : List Table} {dst : Nat} {g : ColRef} {avg : List ColRef} {i : Inp} {out : Table} {n : Nat}
    (hi : mkInp mem g avg = .ok i) (hk : i.key.WF n) (ha : ∀ c ∈ i.avg, c.WF n) (hnd : (g :: avg).Nodup) (hd : dst < mem.length)
    (ho : Table.average i.key i.avg i.act = .ok out) :
    ∃ mem', averageMem mem dst g avg = .ok mem' ∧ mem'.length = mem.length ∧ mem'[dst]? = some out ∧
      (∀ k, k ≠ dst → mem'[k]?.map Table.isActive = mem[k]?.map Table.isActive) ∧
      (∀ c, c.tbl ≠ dst → c ∉ g :: avg → c.get mem' = c.get mem) ∧
      ∀ c ∈ g :: avg, c.tbl ≠ dst → ∀ x, c.get mem = .ok x → c.get mem' = .ok (sorted (plainSort i.key.data.rows) x) := by
  obtain ⟨h1, h2, -, t, h4, h5⟩ := mkInp_inv hi
  obtain ⟨hg, hnd⟩ := List.nodup_cons.mp hnd
  obtain ⟨p1, p2, -⟩ := plainSort_spec hk.shape
  have hperm : ∀ x : Column, x.WF n → Table.permuteBytes ⟨plainSort i.key.data.rows⟩ .regular x = .ok (sorted (plainSort i.key.data.rows) x) :=
    fun x hx => Table.permuteBytes_ok (p := ⟨plainSort i.key.data.rows⟩) (op := .regular) p1 p2 hx.cols hx.shape.1
  have hpermA := mapRes_ok (g := sorted (plainSort i.key.data.rows)) fun c hc => hperm c (ha c hc)
  obtain ⟨m1, e1, a1, b1, l1, f1⟩ := permCol_ok h1 (hperm _ hk)
  have h2' : mapRes (·.get m1) avg = .ok i.avg := by
    rw [← h2]
    exact mapRes_congr fun d hd' => b1 d fun h => hg (h ▸ hd')
  obtain ⟨m2, e2, a2, b2, l2, f2⟩ := permCols_ok hnd h2' hpermA
  unfold Table.average at ho
  simp only [] at ho
  rw [hperm _ hk, ok_bind] at ho
  obtain ⟨act', ea, ho⟩ := bind_inv ho
  rw [hpermA, ok_bind] at ho
  obtain ⟨o, eo, ho⟩ := bind_inv ho
  obtain ⟨cols, ec, ho⟩ := bind_inv ho
  obtain ⟨fl, ef, ho⟩ := bind_inv ho
  injection ho with ho
  have hget : ∀ c : ColRef, c.tbl ≠ dst → c.get (m2.set dst out) = c.get m2 := by
    intro c hc
    unfold ColRef.get rd
    rw [List.getElem?_set_ne (Ne.symm hc)]
  refine ⟨m2.set dst out, ?_, by simp [l2, l1], by simp [l2, l1, hd], ?_, ?_, ?_⟩
  · unfold averageMem
    rw [Gmw.rd_ok_iff.mpr h4, ok_bind, h1, ok_bind]
    simp only []
    rw [e1, ok_bind, ← h5, ea, ok_bind, e2, ok_bind, b2 g hg, a1, ok_bind, a2, ok_bind, outColumns_congr, acc0_congr, eo, ok_bind, ec, ok_bind,
      ef, ok_bind, ho]
  · intro k hk'
    rw [List.getElem?_set_ne (Ne.symm hk'), f2, f1]
  · intro c hc hn
    rw [hget c hc, b2 c fun h => hn (by simp [h]), b1 c fun h => hn (by simp [h])]
  · intro c hc ht x hx
    rw [hget c ht]
    rcases List.mem_cons.mp hc with rfl | hc
    · rw [b2 c hg, a1]
      rw [h1] at hx
      injection hx with hx
      rw [hx]
    · obtain ⟨j, hj, rfl⟩ := List.getElem_of_mem hc
      obtain ⟨s1, s2⟩ := mapRes_at h2
      obtain ⟨s3, s4⟩ := mapRes_at a2
      have e := s4 j hj (by omega)
      rw [e, List.getElem_map]
      have := s2 j hj (by omega)
      rw [hx] at this
      injection this with this
      rw [this]

end GroupEnd
end SecJoin
