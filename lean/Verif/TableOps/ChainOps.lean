import Verif.TableOps.ChainLemmas
import Verif.TableOps.ExtractProps
/-!
# The operations of a program, one by one
-/
namespace SecJoin
namespace Chain
open EndToEnd (ColRef mkQuery shareMem SharedCol numRows cell tableRows joined_row get_ok)
open GroupEnd (mkInp)
open OmJoin (bind_inv)
open Extract (revRow)

/-- All rows of the table at address `i` are active. -/
def AllOn (mem : List Table) (i : Nat) : Prop := ∀ t, mem[i]? = some t → ∀ f ∈ t.isActive, f = 1

/-- What the operation asks of the plaintext tables, its circuits and its correlations. -/
def Pre (mem : List Table) : Op → Prop
  | .filter i ks c junk levels E => ∃ t, mem[i]? = some t ∧ c.WF ∧ c.Plain ∧ ks = List.range t.cols.length ∧ c.outputs.map List.length = [1] ∧
      t.cols.map (·.info.bits) = c.inputs.map List.length ∧ (∀ x ∈ t.cols, 0 < x.info.bits) ∧ t.isActive.length = t.rows ∧ 0 < t.rows ∧
      ∀ w, WhereT.init junk [] t.rows t.getColumnInfo ks c = .ok w → Gmw.Wires.Levelled w.clause levels ∧
        E.Ok t.rows ⟨w.clause.wireCount, w.clause.inputs, w.clause.outputs, levels⟩
  | .remove i p0 p1 => ∃ t W, mem[i]? = some t ∧ t.isActive.length = t.rows ∧ 0 < t.rows ∧ W = Extract.budget (1 + Extract.infoBytes t.getColumnInfo) ∧
      ValidComposed t.rows W 0 W 0 p0 p1
  | .join l r sel L cs _ p0 p1 G => ∃ q k W, mkQuery mem l r sel = .ok q ∧ AllOn mem l.tbl ∧ AllOn mem r.tbl ∧ sel ≠ [] ∧
      (q.select.map (·.2.info.name)).Nodup ∧ 0 < numRows mem l.tbl ∧ 0 < numRows mem r.tbl ∧ numRows mem l.tbl + numRows mem r.tbl ≤ 2 ^ 32 ∧
      1 ≤ L ∧ L ≤ 8 ∧ q.leftKey.info.bits = 2 ^ k ∧ 2 ^ k ≤ cs ∧
      G.Ok (numRows mem l.tbl + numRows mem r.tbl) (2 ^ k) L (OmJoin.dataBytes q.select (2 ^ k)) ∧
      W = 16 * ((OmJoin.permBytes (8 * OmJoin.dataBytes q.select (2 ^ k)) (2 ^ k) + 15) / 16) ∧
      ValidComposed (numRows mem l.tbl + numRows mem r.tbl) W 0 W 0 p0 p1
  | .group g avg L cs _ p0 p1 G _ _ => ∃ i k W, mkInp mem g avg = .ok i ∧ i.act.length = numRows mem g.tbl ∧
      ((GroupEnd.infos i).map (·.name)).Nodup ∧ (∀ c ∈ i.avg, c.info.bits % 8 = 0) ∧ 2 ≤ numRows mem g.tbl ∧ numRows mem g.tbl ≤ 2 ^ 32 ∧
      1 ≤ L ∧ L ≤ 8 ∧ i.key.info.bits + 1 = 2 ^ k ∧ 2 ^ k ≤ cs ∧ GroupBy.EnvOk G (numRows mem g.tbl) (2 ^ k) L (GroupBy.sizes i) ∧
      W = Extract.budget (GroupBy.permBytes (GroupBy.dataBits i (2 ^ k)) (2 ^ k) false) ∧ ValidComposed (numRows mem g.tbl) W 0 W 0 p0 p1

/-! ## Filter -/

theorem bit_eq {t0 t1 t : Table} (h : SharedTab t0 t1 t) {r k : Nat} (hr : r < t.rows) {x : Column} (hk : t.cols[k]? = some x) (j : Nat) :
    WhereT.bit t0 t1 r k j = bitOf (x.data.rows.getD r []) j := by
  have hlt := (List.getElem?_eq_some_iff.mp hk).1
  have l0 : k < t0.cols.length := by
    have := congrArg List.length h.info0
    simp only [Table.getColumnInfo, List.length_map] at this
    omega
  have l1 : k < t1.cols.length := by
    have := congrArg List.length h.info1
    simp only [Table.getColumnInfo, List.length_map] at this
    omega
  have v0 := h.wf0.col _ (List.getElem_mem l0)
  have v1 := h.wf1.col _ (List.getElem_mem l1)
  have e1 : t1.cols[k].info = t0.cols[k].info := by
    have := congrArg (fun l => l[k]?) (h.info0.trans h.info1.symm)
    simp only [Table.getColumnInfo, List.getElem?_map, List.getElem?_eq_getElem l0, List.getElem?_eq_getElem l1, Option.map_some, Option.some.injEq] at this
    exact this.symm
  have s1 := v1.shape
  rw [e1] at s1
  rw [← h.cols] at hk
  unfold Table.xcols at hk
  rw [List.getElem?_zipWith, List.getElem?_eq_getElem l0, List.getElem?_eq_getElem l1] at hk
  injection hk with hk
  have hx : x.data.rows.getD r [] = xorRow (t0.cols[k].data.rows.getD r []) (t1.cols[k].data.rows.getD r []) := by
    rw [← hk]
    exact xm_getD v0.shape s1 hr
  rw [hx, bitOf_xorRow (by rw [shape_getD v0.shape hr, shape_getD s1 hr])]
  unfold WhereT.bit
  simp only []
  rw [List.getElem?_eq_getElem l0, List.getElem?_eq_getElem l1]
  rfl

theorem rowBits_eq {t0 t1 t : Table} (h : SharedTab t0 t1 t) {r : Nat} (hr : r < t.rows) :
    WhereT.rowBits t.getColumnInfo t0 t1 (List.range t.cols.length) r = t.cols.map fun x => (List.range x.info.bits).map (bitOf (x.data.rows.getD r [])) := by
  unfold WhereT.rowBits
  apply List.ext_getElem
  · simp
  · intro k h1 h2
    simp only [List.length_map] at h2
    simp only [List.getElem_map, List.getElem_range]
    have hg : (t.getColumnInfo.getD k ⟨[], .int, 0⟩) = t.cols[k].info := by
      simp [Table.getColumnInfo, List.getD_eq_getElem?_getD, List.getElem?_eq_getElem h2]
    rw [hg]
    apply List.map_congr_left
    intro j _
    exact bit_eq h hr (List.getElem?_eq_getElem h2) j

theorem holds_iff {t0 t1 t : Table} (h : SharedTab t0 t1 t) {c : Gmw.Circuit} (hc : c.WF) {r : Nat} (hr : r < t.rows) :
    WhereT.Holds c t.getColumnInfo t0 t1 (List.range t.cols.length) r ↔ sat c t r = true := by
  unfold WhereT.Holds sat
  rw [rowBits_eq h hr, beq_iff_eq]
  constructor
  · intro h; exact h _
  · intro h v; rw [hc.det _ v fun _ => false]; exact h

theorem wf_flags {t : Table} {n : Nat} (h : t.WF n) {fl : List Byte} (hl : fl.length = n) : (⟨fl, t.cols⟩ : Table).WF n :=
  ⟨h.col, h.names, h.empty, Or.inr hl⟩

theorem filter_ok {m0 m1 mem : List Table} (hg : ∀ t ∈ mem, Good t) (hm : SharedMem m0 m1 mem) {i : Nat} {ks : List Nat} {c : Gmw.Circuit} {junk : Nat}
    {levels : List (List Gmw.Gate)} {E : Gmw.Wires.Env} (hp : Pre mem (.filter i ks c junk levels E)) :
    ∃ u0 u1 u, (Op.filter i ks c junk levels E).run m0 m1 = .ok (u0, u1) ∧ SharedTab u0 u1 u ∧ Good u ∧ Effect mem u (.filter i ks c junk levels E) := by
  obtain ⟨t, ht, hc, hpl, rfl, ho, hb, hpos, hf, hn, hE⟩ := hp
  obtain ⟨t0, t1, a0, a1, hs⟩ := hm.tab i t ht
  have hgt := hg t (List.mem_of_getElem? ht)
  have f0 : t0.isActive.length = t.rows := by rw [hs.len0, hf]
  have f1 : t1.isActive.length = t.rows := by rw [hs.len1, hf]
  have hi01 : t0.cols.map (·.info) = t1.cols.map (·.info) := hs.info0.trans hs.info1.symm
  have hbits0 : t0.cols.map (·.info.bits) = t.cols.map (·.info.bits) := by
    have := congrArg (List.map (·.bits)) hs.info0
    simpa [Table.getColumnInfo, List.map_map, Function.comp_def] using this
  have hlen : t0.cols.length = t.cols.length := by simpa [Table.getColumnInfo] using congrArg List.length hs.info0
  obtain ⟨w, u, hw, hu⟩ := WhereT.C36_accepted junk t.rows c hc hpl ho t0 t1 hs.wf0 hs.wf1 hi01 (by rw [hbits0, hb]) (by
    intro x hx
    have : x.info.bits ∈ t0.cols.map (·.info.bits) := List.mem_map.mpr ⟨x, hx, rfl⟩
    rw [hbits0] at this
    obtain ⟨y, hy, e⟩ := List.mem_map.mp this
    rw [← e]
    exact hpos y hy) f0 f1 (fun _ _ => false) (fun _ => false)
  rw [show t0.cols.map (·.info) = t.getColumnInfo from hs.info0, hlen] at hw
  unfold WhereT.whereBoth at hu
  obtain ⟨a, h0, hu⟩ := bind_inv hu
  obtain ⟨b, h1, -⟩ := bind_inv hu
  obtain ⟨hl, hEo⟩ := hE w hw
  obtain ⟨u0, u1, e, c0, c1, l0, l1, hfl⟩ := WhereT.C36_protocol hc hpl hw hn h0 h1 hl hEo
  have hflag : ∀ r, r < t.rows → WhereT.flag t0 t1 r = t.isActive.getD r 0 := fun r hr => hs.flag r (by rw [hf]; exact hr)
  have hmem : ∀ r, r < t.rows → t.isActive.getD r 0 = 0 ∨ t.isActive.getD r 0 = 1 := by
    intro r hr
    apply hgt.bits
    rw [List.getD_eq_getElem?_getD, List.getElem?_eq_getElem (by rw [hf]; exact hr)]
    exact List.getElem_mem _
  have hne : t.cols ≠ [] := by intro h; have := hgt.wf.empty h; omega
  have hr' : ∀ fl, (⟨fl, t.cols⟩ : Table).rows = t.rows := fun _ => rfl
  refine ⟨u0, u1, ⟨(List.range t.rows).map (WhereT.flag u0 u1), t.cols⟩, ?_, ?_, ?_, t, ht, rfl, ?_, ?_⟩
  · simp only [Op.run]
    rw [Gmw.rd_ok_iff.mpr a0, ok_bind, Gmw.rd_ok_iff.mpr a1, ok_bind, hs.wf0.rows_eq, hs.info0, hw, ok_bind]
    exact e
  · refine ⟨?_, ?_, ?_, ?_, ?_, by simp [l0], by simp [l1], fun r hr => ?_⟩
    · rw [hr', show u0 = ⟨u0.isActive, t0.cols⟩ by rw [← c0]]; exact wf_flags hs.wf0 l0
    · rw [hr', show u1 = ⟨u1.isActive, t1.cols⟩ by rw [← c1]]; exact wf_flags hs.wf1 l1
    · show u0.cols.map (·.info) = t.getColumnInfo; rw [c0]; exact hs.info0
    · show u1.cols.map (·.info) = t.getColumnInfo; rw [c1]; exact hs.info1
    · show Table.xcols u0 u1 = t.cols; unfold Table.xcols; rw [c0, c1]; exact hs.cols
    · simp only [List.length_map, List.length_range] at hr
      rw [OmJoin.getD_range _ hr]; rfl
  · refine ⟨by rw [hr']; exact wf_flags hgt.wf (by simp), by rw [hr']; exact hgt.clean, fun f hfm => ?_⟩
    obtain ⟨r, hr, rfl⟩ := List.mem_map.mp hfm
    have hr := List.mem_range.mp hr
    exact (hfl r hr (by rw [hflag r hr]; exact hmem r hr)).1
  · show ((List.range t.rows).map (WhereT.flag u0 u1)).length = t.rows
    simp
  · unfold live
    rw [List.filter_filter]
    have : (List.range t.rows).filter (on ⟨(List.range t.rows).map (WhereT.flag u0 u1), t.cols⟩) =
        (List.range t.rows).filter fun r => sat c t r && on t r := by
      apply List.filter_congr
      intro r hr
      have hr := List.mem_range.mp hr
      have h2 := (hfl r hr (by rw [hflag r hr]; exact hmem r hr)).2
      rw [hflag r hr, holds_iff hs hc hr] at h2
      unfold on
      have e1 : ((List.range t.rows).map (WhereT.flag u0 u1)).isEmpty = false := by
        cases h : (List.range t.rows).map (WhereT.flag u0 u1) with
        | nil => have := congrArg List.length h; simp at this; omega
        | cons => rfl
      have e2 : t.isActive.isEmpty = false := by
        cases h : t.isActive with
        | nil => rw [h] at hf; simp at hf; omega
        | cons => rfl
      simp only [e1, e2, Bool.false_or, OmJoin.getD_range _ hr]
      rw [Bool.eq_iff_iff, Bool.and_eq_true, beq_iff_eq, beq_iff_eq, h2]
      exact And.comm
    exact this

/-! ## Removal -/

theorem active_eq {t0 t1 t : Table} (h : SharedTab t0 t1 t) (hb : ∀ f ∈ t.isActive, f = 0 ∨ f = 1) (hf : t.isActive.length = t.rows) {r : Nat} (hr : r < t.rows) :
    Extract.active t0 t1 r = on t r := by
  unfold Extract.active on
  rw [h.flag r (by omega)]
  have e2 : t.isActive.isEmpty = false := by
    cases h : t.isActive with
    | nil => rw [h] at hf; simp at hf; omega
    | cons => rfl
  rw [e2, Bool.false_or]
  have : t.isActive.getD r 0 ∈ t.isActive := by
    rw [List.getD_eq_getElem?_getD, List.getElem?_eq_getElem (by omega)]
    exact List.getElem_mem _
  rcases hb _ this with h | h <;> rw [h] <;> decide

theorem col_info {t u : Table} (h : u.getColumnInfo = t.getColumnInfo) {k : Nat} {c : Column} (hc : u.cols[k]? = some c) :
    ∃ d, t.cols[k]? = some d ∧ d.info = c.info := by
  have := congrArg (fun l => l[k]?) h
  simp only [Table.getColumnInfo, List.getElem?_map, hc, Option.map_some] at this
  cases hd : t.cols[k]? with
  | none => rw [hd] at this; cases this
  | some d => rw [hd] at this; injection this with this; exact ⟨d, rfl, this.symm⟩

theorem remove_ok {m0 m1 mem : List Table} (hg : ∀ t ∈ mem, Good t) (hm : SharedMem m0 m1 mem) {i : Nat} {p0 p1 : ComposedPerm} (hp : Pre mem (.remove i p0 p1)) :
    ∃ u0 u1 u, (Op.remove i p0 p1).run m0 m1 = .ok (u0, u1) ∧ SharedTab u0 u1 u ∧ Good u ∧ Effect mem u (.remove i p0 p1) := by
  obtain ⟨t, W, ht, hf, hn, hW, hv⟩ := hp
  obtain ⟨t0, t1, a0, a1, hs⟩ := hm.tab i t ht
  have hgt := hg t (List.mem_of_getElem? ht)
  have hne : t0.cols ≠ [] := by intro h; have := hs.wf0.empty h; omega
  have hne1 : t1.cols ≠ [] := by intro h; have := hs.wf1.empty h; omega
  have hbud : 0 + 1 + Extract.infoBytes t0.getColumnInfo ≤ W := by
    rw [hs.info0, hW]
    unfold Extract.budget divCeil
    omega
  have fit : ∀ t : Table, t.cols ≠ [] → Extract.Fits t ⟨[], []⟩ := by
    intro t h
    left
    intro h'
    exact h (List.length_eq_zero_iff.mp h'.symm)
  obtain ⟨u0, u1, w, e, z0, z1, -, -, -, -, hperm, k0, k1, -, -⟩ := Extract.C35_extract hv hn hs.wf0 hs.wf1 (by rw [hs.info0, hs.info1]) (by rw [hs.len0, hf])
    (by rw [hs.len1, hf]) hbud hbud ⟨[], []⟩ ⟨[], []⟩
  obtain ⟨w0, j0⟩ := k0 (fit t0 hne)
  obtain ⟨w1, j1⟩ := k1 (fit t1 hne1)
  have hi : u0.getColumnInfo = u1.getColumnInfo := by rw [j0, j1]
  have hl : u0.isActive.length = u1.isActive.length := by rw [z0, z1]
  have hw : (sum u0 u1).rows = w := (sum_wf w0 w1 hi hl).rows_eq
  have hinf : (sum u0 u1).getColumnInfo = t.getColumnInfo := by rw [sum_info hi, j0, hs.info0]
  have hact : (List.range t.rows).filter (Extract.active t0 t1) = live t :=
    List.filter_congr fun r hr => active_eq hs hgt.bits hf (List.mem_range.mp hr)
  rw [hact] at hperm
  have hz : (sum u0 u1).isActive = [] := by simp [sum, z0]
  refine ⟨u0, u1, sum u0 u1, ?_, shared_sum w0 w1 hi hl, ⟨by rw [hw]; exact sum_wf w0 w1 hi hl, ?_, by rw [hz]; simp⟩, t, ht, hinf, hz, ?_⟩
  · simp only [Op.run]
    rw [Gmw.rd_ok_iff.mpr a0, ok_bind, Gmw.rd_ok_iff.mpr a1, ok_bind, hs.wf0.rows_eq]
    exact e
  · rw [hw]
    apply clean_of (sum_wf w0 w1 hi hl)
    intro r hr k c x hc hx j hj
    have hin : revRow u0 u1 r ∈ (List.range w).map (revRow u0 u1) := List.mem_map.mpr ⟨r, List.mem_range.mpr hr, rfl⟩
    obtain ⟨a, ha, hea⟩ := List.mem_map.mp (hperm.mem_iff.mp hin)
    have hlt := List.mem_range.mp (List.mem_filter.mp ha).1
    rw [sum_rowAt w0 w1 hi hl hr, ← hea, ← hs.rowAt hlt] at hx
    obtain ⟨d, hd, he⟩ := col_info hinf hc
    exact clean_row hgt.clean hlt hd hx (by rw [he]; exact hj)
  · have hlive : live (sum u0 u1) = List.range w := by
      unfold live on
      rw [hw, hz]
      simp
    have e1 : content (sum u0 u1) = ((List.range w).map (revRow u0 u1)).map fun x => x.map some := by
      unfold content
      rw [hlive, List.map_map]
      exact List.map_congr_left fun r hr => sum_rowAt w0 w1 hi hl (List.mem_range.mp hr)
    have e2 : content t = ((live t).map (revRow t0 t1)).map fun x => x.map some := by
      unfold content
      rw [List.map_map]
      exact List.map_congr_left fun r hr => hs.rowAt (List.mem_range.mp (List.mem_filter.mp hr).1)
    rw [e1, e2]
    exact hperm.map _

/-! ## Join -/

/-- A cell of the joined table is one of a pair of rows, or zero. -/
theorem joined_cell {nL nR : Nat} {same : Nat → Nat → Prop} [DecidableRel same] {q0 q1 : OmJoin.Query} {t0 t1 : Table} (h : OmJoin.OneToMany nL nR same q0 q1 t0 t1)
    (hq : OmJoin.SameQuery nL nR q0 q1) (hnL : 0 < nL) {b : Nat} (hb : b < nR) {k : Nat} {x : Row} (hx : (revRow t0 t1 b)[k]? = some x) :
    (∃ a, a < nL ∧ (OmJoin.pairRow q0 q1 a b)[k]? = some x) ∨ ∀ j, bitOf x j = false := by
  cases hmt : OmJoin.matchOf nL same b with
  | some a =>
    obtain ⟨ha, hs, hf⟩ := OmJoin.matchOf_some hmt
    left
    refine ⟨a, ha, ?_⟩
    rw [← h.row hq hb ha hs hf]
    exact hx
  | none =>
    have hmiss := (h.miss b hb (OmJoin.matchOf_none hmt)).2
    have hlen := hq.sel.length_eq
    have hk : k < q0.select.length := by
      have := (List.getElem?_eq_some_iff.mp hx).1
      simp only [revRow, List.length_zipWith, h.cols0, h.cols1] at this
      omega
    have hk1 : k < q1.select.length := by omega
    have hbb := ((List.forall₂_iff_get.mp hq.sel).2 k hk hk1).1
    simp only [List.get_eq_getElem] at hbb
    have e0 := List.getElem?_eq_getElem hk
    have e1 := List.getElem?_eq_getElem hk1
    obtain ⟨s0, c0, ha⟩ : ∃ b c, q0.select[k] = (b, c) := ⟨_, _, rfl⟩
    obtain ⟨s1, c1, hc⟩ : ∃ b c, q1.select[k] = (b, c) := ⟨_, _, rfl⟩
    rw [ha] at hbb e0
    rw [hc] at hbb e1
    simp only [] at hbb
    subst hbb
    unfold revRow at hx
    cases s0 with
    | true =>
      right
      obtain ⟨x0, x1, g0, g1, -, -, g⟩ := hmiss k c0 c1 e0 e1
      rw [List.getElem?_zipWith, g0, g1] at hx
      injection hx with hx
      intro j
      have : x = List.replicate (OmJoin.colBytes c0) 0 := hx.symm.trans g
      rw [this]
      unfold bitOf
      rw [List.getD_eq_getElem?_getD, List.getElem?_replicate]
      split <;> simp
    | false =>
      left
      obtain ⟨g0, g1⟩ := h.right k c0 c1 e0 e1
      rw [List.getElem?_zipWith, g0, g1] at hx
      refine ⟨0, hnL, ?_⟩
      unfold OmJoin.pairRow
      rw [List.getElem?_zipWith, e0, e1]
      exact hx

/-- The join, whatever the flags of the tables it reads. -/
theorem join_all {m0 m1 mem : List Table} (hg : ∀ t ∈ mem, Good t) (hm : SharedMem m0 m1 mem) {l r : ColRef} {sel : List ColRef} {q : OmJoin.Query}
    (hq : mkQuery mem l r sel = .ok q) (hne : sel ≠ []) (hnames : (q.select.map (·.2.info.name)).Nodup)
    (hnL : 0 < numRows mem l.tbl) (hnR : 0 < numRows mem r.tbl) (hn32 : numRows mem l.tbl + numRows mem r.tbl ≤ 2 ^ 32)
    {L cs k W : Nat} (h1 : 1 ≤ L) (h8 : L ≤ 8) (hk : q.leftKey.info.bits = 2 ^ k) (hcs : 2 ^ k ≤ cs) {enc : Row → Row}
    {G : OmJoin.GmwEnv} (hG : G.Ok (numRows mem l.tbl + numRows mem r.tbl) (2 ^ k) L (OmJoin.dataBytes q.select (2 ^ k))) {p0 p1 : ComposedPerm}
    (hW : W = 16 * ((OmJoin.permBytes (8 * OmJoin.dataBytes q.select (2 ^ k)) (2 ^ k) + 15) / 16))
    (hp : ValidComposed (numRows mem l.tbl + numRows mem r.tbl) W 0 W 0 p0 p1) :
    ∃ u0 u1 u, (Op.join l r sel L cs enc p0 p1 G).run m0 m1 = .ok (u0, u1) ∧ SharedTab u0 u1 u ∧ Good u ∧
      u.getColumnInfo = q.select.map (·.2.info) ∧ u.rows = numRows mem r.tbl ∧ u.isActive.length = u.rows ∧
      content u = (EndToEnd.pairs mem l r).map fun p => sel.map fun c => cell mem c (if c.tbl = l.tbl then p.1 else p.2) := by
  have hm' : ∀ t ∈ mem, t.WF t.rows ∧ t.Clean t.rows := fun t ht => ⟨(hg t ht).wf, (hg t ht).clean⟩
  obtain ⟨q0, q1, t0, t1, e0, e1, et, hs, ho, w0, w1, i0, i1, hcols, hl, hr, hrow⟩ := EndToEnd.join_run (cs := cs) (enc := enc) hm' (hm.cols hg) hq hne hnames hnL hnR
    hn32 h1 h8 hk hcs hG hW hp
  obtain ⟨cols, g1, g2, g3, -, -, g6⟩ := EndToEnd.mkQuery_inv hq
  have hi : t0.getColumnInfo = t1.getColumnInfo := by rw [i0, i1]
  have hlen : t0.isActive.length = t1.isActive.length := by rw [ho.rows0, ho.rows1]
  have hwf := sum_wf w0 w1 hi hlen
  have hst := shared_sum w0 w1 hi hlen
  have hn : (sum t0 t1).rows = numRows mem r.tbl := hwf.rows_eq
  have hinf : (sum t0 t1).getColumnInfo = q.select.map (·.2.info) := by rw [sum_info hi, i0]
  have hfl : (sum t0 t1).isActive.length = numRows mem r.tbl := by simp [sum, ho.rows0, ho.rows1]
  have hbits : ∀ f ∈ (sum t0 t1).isActive, f = 0 ∨ f = 1 := by
    intro f hf
    obtain ⟨b, hb, rfl⟩ := List.getElem_of_mem hf
    have hb' : b < numRows mem r.tbl := by rw [← hfl]; exact hb
    have := hst.flag b hb
    rw [List.getD_eq_getElem?_getD (l := (sum t0 t1).isActive), List.getElem?_eq_getElem hb, Option.getD_some] at this
    rw [← this]
    cases hmt : OmJoin.matchOf (numRows mem l.tbl) (fun a b => OmJoin.shown q0.leftKey q1.leftKey a = OmJoin.shown q0.rightKey q1.rightKey b) b with
    | none => exact Or.inl (ho.miss b hb' (OmJoin.matchOf_none hmt)).1
    | some a =>
      obtain ⟨ha, hsm, hft⟩ := OmJoin.matchOf_some hmt
      exact Or.inr (ho.hit b hb' a ha hsm hft).1
  refine ⟨t0, t1, sum t0 t1, ?_, hst, ⟨by rw [hn]; exact hwf, ?_, hbits⟩, hinf, hn, by rw [hfl, hn], ?_⟩
  · simp only [Op.run]
    rw [e0, ok_bind, e1, ok_bind]
    exact et
  · rw [hn]
    apply clean_of hwf
    intro b hb k' c x hc hx j hj
    rw [sum_rowAt w0 w1 hi hlen hb] at hx
    rw [List.getElem?_map] at hx
    obtain ⟨y, hy, hyx⟩ := Option.map_eq_some_iff.mp hx
    injection hyx with hyx
    subst hyx
    rcases joined_cell ho hs hnL hb hy with ⟨a, ha, hpr⟩ | hz
    · have h2 := congrArg (fun l => l[k']?) (hrow a b ha hb)
      simp only [List.getElem?_map, hpr, Option.map_some] at h2
      obtain ⟨xs, rfl, rfl, hxs⟩ := EndToEnd.sel_pairs g3
      rw [List.getElem?_map] at h2
      cases hxk : xs[k']? with
      | none => rw [hxk] at h2; cases h2
      | some z =>
        rw [hxk] at h2
        simp only [Option.map_some, Option.some.injEq] at h2
        have hget := hxs z (List.mem_of_getElem? hxk)
        have hci : c.info = z.2.info := by
          have := congrArg (fun l => l[k']?) hinf
          simp only [Table.getColumnInfo, List.getElem?_map, hc, Option.map_some] at this
          rw [g6, List.zipWith_map, List.zipWith_self, List.getElem?_map, hxk] at this
          simpa using this
        rw [hci] at hj
        rw [EndToEnd.cell_of hget] at h2
        obtain ⟨wz, cz⟩ := EndToEnd.get_wf hm' hget
        have hlt := (List.getElem?_eq_some_iff.mp h2.symm).1
        rw [wz.shape.1] at hlt
        have := cz _ hlt j hj
        rw [List.getD_eq_getElem?_getD, ← h2] at this
        exact this
    · exact hz j
  · obtain ⟨s, es, -, hrows⟩ := reveal_content hst hbits
    obtain ⟨s', es', -, hrows'⟩ := EndToEnd.reveal_join ho hs w0 w1 hi hcols
    rw [es] at es'
    injection es' with es'
    subst es'
    rw [← hrows, hrows']
    exact EndToEnd.joinRows_pairs hm' g1 g2 hl hr hrow

theorem live_all {t : Table} (h : ∀ f ∈ t.isActive, f = 1) (hf : t.isActive = [] ∨ t.isActive.length = t.rows) : live t = List.range t.rows := by
  unfold live
  rw [List.filter_eq_self]
  intro r hr
  have hr := List.mem_range.mp hr
  unfold on
  rcases hf with hf | hf
  · simp [hf]
  · have : t.isActive.getD r 0 ∈ t.isActive := by
      rw [List.getD_eq_getElem?_getD, List.getElem?_eq_getElem (by omega)]
      exact List.getElem_mem _
    rw [h _ this]
    simp

theorem get_tbl {mem : List Table} {c : ColRef} {x : Column} (h : c.get mem = .ok x) : ∃ t, mem[c.tbl]? = some t ∧ t.cols[c.col]? = some x := get_ok.mp h

theorem join_ok {m0 m1 mem : List Table} (hg : ∀ t ∈ mem, Good t) (hm : SharedMem m0 m1 mem) {l r : ColRef} {sel : List ColRef} {L cs : Nat} {enc : Row → Row}
    {p0 p1 : ComposedPerm} {G : OmJoin.GmwEnv} (hp : Pre mem (.join l r sel L cs enc p0 p1 G)) :
    ∃ u0 u1 u, (Op.join l r sel L cs enc p0 p1 G).run m0 m1 = .ok (u0, u1) ∧ SharedTab u0 u1 u ∧ Good u ∧ Effect mem u (.join l r sel L cs enc p0 p1 G) := by
  obtain ⟨q, k, W, hq, al, ar, hne, hnames, hnL, hnR, hn32, h1, h8, hk, hcs, hG, hW, hv⟩ := hp
  obtain ⟨u0, u1, u, e, hs, hgu, hi, hr, hf, hc⟩ := join_all (enc := enc) hg hm hq hne hnames hnL hnR hn32 h1 h8 hk hcs hG hW hv
  obtain ⟨cols, g1, g2, g3, -, -, g6⟩ := EndToEnd.mkQuery_inv hq
  obtain ⟨tl, a1, -⟩ := get_tbl g1
  obtain ⟨tr, b1, -⟩ := get_tbl g2
  refine ⟨u0, u1, u, e, hs, hgu, tl, tr, a1, b1, ?_, by rw [hr]; simp [numRows, b1], hf, ?_⟩
  · obtain ⟨xs, rfl, rfl, hxs⟩ := EndToEnd.sel_pairs g3
    rw [hi, g6, List.zipWith_map, List.zipWith_self, List.map_map, List.map_map, List.map_map]
    apply List.map_congr_left
    intro x hx
    obtain ⟨t, c1, c2⟩ := get_tbl (hxs x hx)
    simp [Function.comp, c1, c2]
  · rw [hc]
    congr 1
    unfold livePairs EndToEnd.pairs
    rw [live_all (al tl a1) (hg tl (List.mem_of_getElem? a1)).wf.flags, live_all (ar tr b1) (hg tr (List.mem_of_getElem? b1)).wf.flags]
    simp [numRows, a1, b1]

/-! ## Group-by -/

theorem group_ok {m0 m1 mem : List Table} (hg : ∀ t ∈ mem, Good t) (hm : SharedMem m0 m1 mem) {g : ColRef} {avg : List ColRef} {L cs : Nat} {enc : Row → Row}
    {p0 p1 : ComposedPerm} {G : OmJoin.GmwEnv} {junk0 junk1 : Nat → Nat → Byte} (hp : Pre mem (.group g avg L cs enc p0 p1 G junk0 junk1)) :
    ∃ u0 u1 u, (Op.group g avg L cs enc p0 p1 G junk0 junk1).run m0 m1 = .ok (u0, u1) ∧ SharedTab u0 u1 u ∧ Good u ∧
      Effect mem u (.group g avg L cs enc p0 p1 G junk0 junk1) := by
  obtain ⟨i, k, W, hi, hact, hnames, hb, h2, hn32, h1, h8, hk, hcs, hG, hW, hv⟩ := hp
  have hm' : ∀ t ∈ mem, t.WF t.rows ∧ t.Clean t.rows := fun t ht => ⟨(hg t ht).wf, (hg t ht).clean⟩
  obtain ⟨a1, a2, a3, t, a4, a5⟩ := GroupEnd.mkInp_inv hi
  have h01 : ∀ f ∈ i.act, f = 0 ∨ f = 1 := by rw [a5]; exact (hg t (List.mem_of_getElem? a4)).bits
  obtain ⟨i0, i1, t0, t1, e0, e1, et, w0, w1, o0, o1, hne, r0, r1, hfl, hr, hlen⟩ := GroupEnd.group_run (cs := cs) (enc := enc) hm' (hm.cols hg) hm.flags hi hact h01
    hnames hb h2 hn32 h1 h8 hk hcs hG hW hv junk0 junk1
  have hi' : t0.getColumnInfo = t1.getColumnInfo := by rw [o0, o1]
  have hl : t0.isActive.length = t1.isActive.length := by rw [r0, r1]
  have hwf := sum_wf w0 w1 hi' hl
  have hst := shared_sum w0 w1 hi' hl
  have hn : (sum t0 t1).rows = numRows mem g.tbl := hwf.rows_eq
  have hinf : (sum t0 t1).getColumnInfo = GroupEnd.infos i := by rw [sum_info hi', o0]
  have hfl' : (sum t0 t1).isActive.length = numRows mem g.tbl := by simp [sum, r0, r1]
  have hbits : ∀ f ∈ (sum t0 t1).isActive, f = 0 ∨ f = 1 := by
    intro f hf
    obtain ⟨b, hb, rfl⟩ := List.getElem_of_mem hf
    have := hst.flag b hb
    rw [List.getD_eq_getElem?_getD (l := (sum t0 t1).isActive), List.getElem?_eq_getElem hb, Option.getD_some] at this
    rw [← this, hfl b (by rw [← hfl']; exact hb)]
    by_cases h : GroupEnd.first i b = true
    · rw [if_pos h]; exact Or.inr rfl
    · rw [if_neg h]; exact Or.inl rfl
  refine ⟨t0, t1, sum t0 t1, ?_, hst, ⟨by rw [hn]; exact hwf, ?_, hbits⟩, i, t, a4, ?_, ?_, a5, hinf, by rw [hn]; simp [numRows, a4], by rw [hfl', hn], ?_⟩
  · simp only [Op.run]
    rw [e0, ok_bind, e1, ok_bind]
    exact et
  · rw [hn]
    intro c hc r hr' j hj
    have wc := hwf.col c hc
    have h8 : c.info.bits = 8 * divCeil c.info.bits 8 := by
      have : c.info ∈ GroupEnd.infos i := by rw [← hinf]; exact List.mem_map.mpr ⟨c, hc, rfl⟩
      unfold GroupEnd.infos at this
      simp only [List.mem_cons, List.mem_append, List.mem_map, List.not_mem_nil, or_false] at this
      unfold divCeil at this ⊢
      rcases this with h | ⟨d, -, h⟩ | h
      · rw [h]; simp only []; omega
      · rw [← h]; simp only []; omega
      · rw [h]; norm_num
    apply bitOf_ge
    rw [shape_getD wc.shape hr', ← h8]
    exact hj
  · obtain ⟨t', b1, b2⟩ := get_tbl a1
    rw [a4] at b1
    injection b1 with b1
    rw [b1]
    exact b2
  · obtain ⟨xs, rfl, hx, hxs⟩ := EndToEnd.sel_pairs a2
    rw [hx, List.map_map, List.map_map]
    apply List.map_congr_left
    intro x hxm
    obtain ⟨t', b1, b2⟩ := get_tbl (hxs x hxm)
    rw [a3 x.1 (List.mem_map.mpr ⟨x, hxm, rfl⟩), a4] at b1
    injection b1 with b1
    simp only [Function.comp]
    rw [b1, b2]
  · obtain ⟨s, es, -, hrows⟩ := reveal_content hst hbits
    obtain ⟨s', es', -, hrows'⟩ := GroupEnd.reveal_active (P := GroupEnd.first i) w0 w1 hi' hne r0 r1 hfl
    rw [es] at es'
    injection es' with es'
    subst es'
    rw [← hrows, hrows']
    unfold GroupEnd.grouped
    rw [hlen]
    apply List.map_congr_left
    intro r hm
    rw [List.mem_filter, List.mem_range] at hm
    exact hr r hm.1 hm.2

/-- Every operation gives shares of its specified result. -/
theorem op_ok {m0 m1 mem : List Table} (hg : ∀ t ∈ mem, Good t) (hm : SharedMem m0 m1 mem) {o : Op} (hp : Pre mem o) :
    ∃ u0 u1 u, o.run m0 m1 = .ok (u0, u1) ∧ SharedTab u0 u1 u ∧ Good u ∧ Effect mem u o := by
  cases o with
  | filter => exact filter_ok hg hm hp
  | remove => exact remove_ok hg hm hp
  | join => exact join_ok hg hm hp
  | group => exact group_ok hg hm hp

end Chain
end SecJoin
