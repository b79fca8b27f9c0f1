import Verif.TableOps.GroupEndLemmas
/-!
# C81: the shared group-by reveals the rows of the plaintext average
-/
namespace SecJoin
namespace GroupEnd
open EndToEnd (ColRef shareMem SharedCol numRows tableRows get_ok get_wf sel_pairs activeRows cell)
open GroupBy (Inp SameInp EnvOk dataBits permBytes sizes)
open OmJoin (shown colBytes GmwEnv)

/-- The run of the group-by on shares, up to the revealing. -/
theorem group_run {mem m0 m1 : List Table} {g : ColRef} {avg : List ColRef} {i : Inp} (hm : ∀ t ∈ mem, t.WF t.rows ∧ t.Clean t.rows)
    (hsh : ∀ c x, ColRef.get mem c = .ok x → ∃ x0 x1, c.get m0 = .ok x0 ∧ c.get m1 = .ok x1 ∧ SharedCol (numRows mem c.tbl) x x0 x1)
    (hsh' : ∀ (k : Nat) t, mem[k]? = some t → ∃ s0 s1, m0[k]? = some s0 ∧ m1[k]? = some s1 ∧ s0.isActive.length = t.isActive.length ∧
      s1.isActive.length = t.isActive.length ∧ ∀ r, r < t.isActive.length → s0.isActive.getD r 0 ^^^ s1.isActive.getD r 0 = t.isActive.getD r 0)
    (hi : mkInp mem g avg = .ok i) (hact : i.act.length = numRows mem g.tbl) (h01 : ∀ f ∈ i.act, f = 0 ∨ f = 1)
    (hnames : ((infos i).map (·.name)).Nodup) (hb : ∀ c ∈ i.avg, c.info.bits % 8 = 0)
    (h2 : 2 ≤ numRows mem g.tbl) (hn32 : numRows mem g.tbl ≤ 2 ^ 32) {L cs k W : Nat} (h1 : 1 ≤ L) (h8 : L ≤ 8)
    (hk : i.key.info.bits + 1 = 2 ^ k) (hcs : 2 ^ k ≤ cs) {enc : Row → Row} {G : GmwEnv} (hG : EnvOk G (numRows mem g.tbl) (2 ^ k) L (sizes i))
    {p0 p1 : ComposedPerm} (hW : W = Extract.budget (permBytes (dataBits i (2 ^ k)) (2 ^ k) false)) (hp : ValidComposed (numRows mem g.tbl) W 0 W 0 p0 p1)
    (junk0 junk1 : Nat → Nat → Byte) :
    ∃ i0 i1 t0 t1, mkInp m0 g avg = .ok i0 ∧ mkInp m1 g avg = .ok i1 ∧ GroupBy.groupByGmw L cs enc i0 i1 p0 p1 G junk0 junk1 = .ok (t0, t1) ∧
      t0.WF (numRows mem g.tbl) ∧ t1.WF (numRows mem g.tbl) ∧ t0.getColumnInfo = infos i ∧ t1.getColumnInfo = infos i ∧ t0.cols ≠ [] ∧
      t0.isActive.length = numRows mem g.tbl ∧ t1.isActive.length = numRows mem g.tbl ∧
      (∀ r, r < numRows mem g.tbl → t0.isActive.getD r 0 ^^^ t1.isActive.getD r 0 = if first i r then 1 else 0) ∧
      (∀ r, r < numRows mem g.tbl → first i r = true → (Extract.revRow t0 t1 r).map some = rowOf i r) ∧ i.key.data.rows.length = numRows mem g.tbl := by
  obtain ⟨i0, i1, e0, e1, hkey, ⟨xs, hxi, hx0, hx1, hx⟩, l0, l1, hf⟩ := setup_of hsh hsh' hi
  obtain ⟨g1, -, -, -⟩ := mkInp_inv hi
  rw [hact] at l0 l1
  have hs := sameInp_of hkey hx0 hx1 hx l0 l1
  have hon : ∀ r, r < numRows mem g.tbl → GroupBy.isAct i0 i1 r = on i r := fun r hr => on_eq hact h01 hf hr
  have a0 : i0.avg.map (·.info) = i.avg.map (·.info) := by
    rw [hx0, hxi, List.map_map, List.map_map]
    exact List.map_congr_left fun x hxm => (hx x hxm).info0
  have a1 : i1.avg.map (·.info) = i.avg.map (·.info) := by
    rw [hx1, hxi, List.map_map, List.map_map]
    exact List.map_congr_left fun x hxm => (hx x hxm).info1
  have hb0 : GroupBy.Bytes i0 := by
    intro c hc
    have : c.info ∈ i.avg.map (·.info) := by rw [← a0]; exact List.mem_map.mpr ⟨c, hc, rfl⟩
    obtain ⟨d, hd, hdc⟩ := List.mem_map.mp this
    rw [← hdc]
    exact hb d hd
  rw [← sizes_eq a0] at hG
  rw [← dataBits_eq hkey.info0 a0] at hW
  rw [← hkey.info0] at hk
  obtain ⟨t0, t1, et, ho⟩ := GroupBy.C34_gmw_partial (cs := cs) (enc := enc) hs hb0 h2 hn32 h1 h8 hk hcs (by
    intro r hr j hj
    rw [hkey.row r hr]
    exact (get_wf hm g1).2 r hr j (by rw [← hkey.info0]; exact hj)) hG junk0 junk1 hW hp
  have o0 : t0.getColumnInfo = infos i := by rw [ho.info0, infos_eq hkey.info0 a0]
  have o1 : t1.getColumnInfo = infos i := by rw [ho.info1, infos_eq hkey.info1 a1]
  have hwf : ∀ t : Table, t.getColumnInfo = infos i → t.isActive.length = numRows mem g.tbl → (∀ c ∈ t.cols, c.WF (numRows mem g.tbl)) →
      t.WF (numRows mem g.tbl) ∧ t.cols ≠ [] := by
    intro t ht hl hc
    have hne : t.cols ≠ [] := by
      intro h
      have : t.getColumnInfo = [] := by simp [Table.getColumnInfo, h]
      rw [this] at ht
      simp [infos] at ht
    refine ⟨⟨hc, ?_, fun h => absurd h hne, Or.inr hl⟩, hne⟩
    rw [← ht] at hnames
    simpa [Table.getColumnInfo, List.map_map, Function.comp_def] using hnames
  obtain ⟨w0, hne⟩ := hwf t0 o0 ho.rows0 fun c hc => ho.cols c (by simp [hc])
  obtain ⟨w1, -⟩ := hwf t1 o1 ho.rows1 fun c hc => ho.cols c (by simp [hc])
  have hfst : ∀ r, r < numRows mem g.tbl → GroupBy.isHead i0 i1 r = first i r := fun r hr => first_eq hkey hon hr
  refine ⟨i0, i1, t0, t1, e0, e1, et, w0, w1, o0, o1, hne, ho.rows0, ho.rows1, fun r hr => ?_, fun r hr hfr => ?_, hkey.wf.shape.1⟩
  · rw [ho.flag r hr, hfst r hr]
  · rw [ho.row r hr (by rw [hfst r hr]; exact hfr)]
    exact row_eq hkey hxi hx0 hx1 hx hb hon hr

/-- **C81, the shared group-by.** The revealed table has the key, the sums and the count as columns and one row for every key with active rows,
in the order of their first active rows, for every sharing. -/
theorem C81_shared {mem : List Table} {g : ColRef} {avg : List ColRef} {i : Inp} (hm : ∀ t ∈ mem, t.WF t.rows ∧ t.Clean t.rows)
    (hi : mkInp mem g avg = .ok i) (hact : i.act.length = numRows mem g.tbl) (h01 : ∀ f ∈ i.act, f = 0 ∨ f = 1)
    (hnames : ((infos i).map (·.name)).Nodup) (hb : ∀ c ∈ i.avg, c.info.bits % 8 = 0)
    (h2 : 2 ≤ numRows mem g.tbl) (hn32 : numRows mem g.tbl ≤ 2 ^ 32) {L cs k W : Nat} (h1 : 1 ≤ L) (h8 : L ≤ 8)
    (hk : i.key.info.bits + 1 = 2 ^ k) (hcs : 2 ^ k ≤ cs) {enc : Row → Row} {G : GmwEnv} (hG : EnvOk G (numRows mem g.tbl) (2 ^ k) L (sizes i))
    {p0 p1 : ComposedPerm} (hW : W = Extract.budget (permBytes (dataBits i (2 ^ k)) (2 ^ k) false)) (hp : ValidComposed (numRows mem g.tbl) W 0 W 0 p0 p1)
    (junk0 junk1 : Nat → Nat → Byte) (rnd : Nat → Nat → Nat → Nat → Byte) (rndF : Nat → Nat → Byte) :
    ∃ s, sharedGroupBy rnd rndF L cs enc p0 p1 G junk0 junk1 mem g avg = .ok s ∧ s.getColumnInfo = infos i ∧ tableRows s = grouped i := by
  obtain ⟨m0, m1, e, hs'⟩ := EndToEnd.shareMem_tables (rnd := rnd) (rndF := rndF) 0 mem hm
  obtain ⟨i0, i1, t0, t1, e0, e1, et, w0, w1, o0, o1, hne, r0, r1, hfl, hr, hlen⟩ := group_run (m0 := m0) (m1 := m1) (cs := cs) (enc := enc) hm
    (EndToEnd.cols_ok hm fun k t hk => by
      obtain ⟨s0, s1, g0, g1, w0, w1, i0, i1, hc, -⟩ := hs' k t hk
      exact ⟨s0, s1, g0, g1, w0, w1, i0, i1, hc⟩) (fun k t hk => by
      obtain ⟨s0, s1, g0, g1, -, -, -, -, -, h⟩ := hs' k t hk
      exact ⟨s0, s1, g0, g1, h⟩) hi hact h01 hnames hb h2 hn32 h1 h8 hk hcs hG hW hp junk0 junk1
  obtain ⟨s, es, si, hrows⟩ := reveal_active (P := first i) w0 w1 (by rw [o0, o1]) hne r0 r1 hfl
  refine ⟨s, ?_, by rw [si, o0], ?_⟩
  · unfold sharedGroupBy
    rw [e, ok_bind]
    simp only []
    rw [e0, ok_bind, e1, ok_bind, et, ok_bind]
    exact es
  · rw [hrows]
    unfold grouped
    rw [hlen]
    apply List.map_congr_left
    intro r hm
    rw [List.mem_filter, List.mem_range] at hm
    exact hr r hm.1 hm.2

/-- The columns of the query are of the table of the key. -/
theorem avg_wf {mem : List Table} {g : ColRef} {avg : List ColRef} {i : Inp} (hm : ∀ t ∈ mem, t.WF t.rows ∧ t.Clean t.rows) (hi : mkInp mem g avg = .ok i) :
    i.key.WF (numRows mem g.tbl) ∧ (∀ c ∈ i.avg, c.WF (numRows mem g.tbl)) ∧ (i.act = [] ∨ i.act.length = numRows mem g.tbl) := by
  obtain ⟨h1, h2, h3, t, h4, h5⟩ := mkInp_inv hi
  refine ⟨(get_wf hm h1).1, fun c hc => ?_, ?_⟩
  · obtain ⟨xs, rfl, hx, hg⟩ := sel_pairs h2
    rw [hx] at hc
    obtain ⟨x, hxm, rfl⟩ := List.mem_map.mp hc
    rw [← h3 x.1 (List.mem_map.mpr ⟨x, hxm, rfl⟩)]
    exact (get_wf hm (hg x hxm)).1
  · have hn : numRows mem g.tbl = t.rows := by simp [numRows, h4]
    rw [h5, hn]
    exact (hm t (List.mem_of_getElem? h4)).1.flags

/-- **C81, the plaintext average** of a table all of whose rows are active: its active rows are the groups in the order of their first rows, and
it has the same columns. Called on table `dst`, it leaves the result there. -/
theorem C81_plain {mem : List Table} {dst : Nat} {g : ColRef} {avg : List ColRef} {i : Inp} (hm : ∀ t ∈ mem, t.WF t.rows ∧ t.Clean t.rows)
    (hi : mkInp mem g avg = .ok i) (hall : ∀ f ∈ i.act, f = 1) (hb : ∀ c ∈ i.avg, c.info.bits % 8 = 0) (hn64 : numRows mem g.tbl < 2 ^ 64)
    (hnd : (g :: avg).Nodup) (hd : dst < mem.length) :
    ∃ mem' t, averageMem mem dst g avg = .ok mem' ∧ mem'[dst]? = some t ∧ t.getColumnInfo = infos i ∧ activeRows t = grouped i := by
  obtain ⟨wk, wa, wf⟩ := avg_wf hm hi
  obtain ⟨t, e, hl, hinf, hrow⟩ := Table.C18_average_partial wk wa hb wf
  obtain ⟨mem', em, -, hget, -⟩ := averageMem_ok hi wk wa hnd hd e
  refine ⟨mem', t, em, hget, hinf, ?_⟩
  have hon : ∀ r, r < numRows mem g.tbl → on i r = true ∧ (if i.act = [] then (1 : Byte) else i.act.getD r 0) = 1 := by
    intro r hr
    rcases wf with h | h
    · unfold on; rw [h]; exact ⟨rfl, rfl⟩
    · have hne : i.act ≠ [] := by intro h'; rw [h'] at h; simp at h; omega
      have : i.act.getD r 0 = 1 := by
        apply hall
        rw [List.getD_eq_getElem?_getD, List.getElem?_eq_getElem (by omega)]
        exact List.getElem_mem _
      unfold on
      rw [if_neg hne, this]
      simp
  have hfirst : ∀ r, r < numRows mem g.tbl → (first i r = true ↔ Table.FirstOf i.key r) := by
    intro r hr
    unfold first Table.FirstOf
    rw [(hon r hr).1, Bool.true_and, List.all_eq_true]
    constructor
    · intro h j hj he
      have := h j (List.mem_range.mpr hj)
      rw [(hon j (by omega)).1] at this
      simp [keyAt] at this
      exact this he
    · intro h j hj
      have hj := List.mem_range.mp hj
      rw [(hon j (by omega)).1]
      simp [keyAt]
      exact h j hj
  unfold activeRows grouped
  rw [hl, wk.shape.1]
  have hF : ((List.range (numRows mem g.tbl)).filter fun r => t.isActive.getD r 0 == 1) = (List.range (numRows mem g.tbl)).filter (first i) := by
    apply List.filter_congr
    intro r hr
    have hr := List.mem_range.mp hr
    rw [Bool.eq_iff_iff, hfirst r hr]
    by_cases hf : Table.FirstOf i.key r
    · have := ((hrow r hr).1 hf).1
      rw [(hon r hr).2] at this
      simp [List.getD_eq_getElem?_getD, this, hf]
    · have := (hrow r hr).2 hf
      simp [List.getD_eq_getElem?_getD, this, hf]
  rw [hF]
  apply List.map_congr_left
  intro r hr
  rw [List.mem_filter, List.mem_range] at hr
  have hf := (hfirst r hr.1).mp hr.2
  rw [((hrow r hr.1).1 hf).2 (by rw [(hon r hr.1).2]; decide)]
  have hmem : Table.groupOf i.key (numRows mem g.tbl) r = members i r := by
    unfold Table.groupOf members
    rw [wk.shape.1]
    apply List.filter_congr
    intro a ha
    rw [(hon a (List.mem_range.mp ha)).1, Bool.true_and]
    rfl
  have hlen : (members i r).length < 2 ^ 64 := by
    have := List.length_filter_le (fun a => on i a && keyAt i a == keyAt i r) (List.range i.key.data.rows.length)
    rw [List.length_range, wk.shape.1] at this
    unfold members
    rw [wk.shape.1]
    omega
  unfold Table.groupRow rowOf
  rw [hmem, Nat.mod_eq_of_lt hlen]
  rfl

/-- **C81, agreement**: for a table with flags all of whose rows are active, the revealed table and the active rows of the average are the same rows in
the same order, with the same columns. (Partial: for inactive rows it fails, see `C81_inactive_false`.) -/
theorem C81_agree_partial {mem : List Table} {dst : Nat} {g : ColRef} {avg : List ColRef} {i : Inp} (hm : ∀ t ∈ mem, t.WF t.rows ∧ t.Clean t.rows)
    (hi : mkInp mem g avg = .ok i) (hact : i.act.length = numRows mem g.tbl) (hall : ∀ f ∈ i.act, f = 1)
    (hnames : ((infos i).map (·.name)).Nodup) (hb : ∀ c ∈ i.avg, c.info.bits % 8 = 0)
    (h2 : 2 ≤ numRows mem g.tbl) (hn32 : numRows mem g.tbl ≤ 2 ^ 32) {L cs k W : Nat} (h1 : 1 ≤ L) (h8 : L ≤ 8)
    (hk : i.key.info.bits + 1 = 2 ^ k) (hcs : 2 ^ k ≤ cs) {enc : Row → Row} {G : GmwEnv} (hG : EnvOk G (numRows mem g.tbl) (2 ^ k) L (sizes i))
    {p0 p1 : ComposedPerm} (hW : W = Extract.budget (permBytes (dataBits i (2 ^ k)) (2 ^ k) false)) (hp : ValidComposed (numRows mem g.tbl) W 0 W 0 p0 p1)
    (junk0 junk1 : Nat → Nat → Byte) (rnd : Nat → Nat → Nat → Nat → Byte) (rndF : Nat → Nat → Byte) (hnd : (g :: avg).Nodup) (hd : dst < mem.length) :
    ∃ s mem' t, sharedGroupBy rnd rndF L cs enc p0 p1 G junk0 junk1 mem g avg = .ok s ∧ averageMem mem dst g avg = .ok mem' ∧ mem'[dst]? = some t ∧
      s.getColumnInfo = t.getColumnInfo ∧ tableRows s = activeRows t := by
  obtain ⟨s, es, si, sr⟩ := C81_shared hm hi hact (fun f hf => Or.inr (hall f hf)) hnames hb h2 hn32 h1 h8 hk hcs (enc := enc) hG hW hp junk0 junk1 rnd rndF
  obtain ⟨mem', t, em, ht, ti, tr⟩ := C81_plain hm hi hall hb (by omega) hnd hd
  exact ⟨s, mem', t, es, em, ht, by rw [si, ti], by rw [sr, tr]⟩

/-- The shared group-by refuses columns of another table on both sides; nothing is revealed. -/
theorem C81_refused {mem : List Table} {g : ColRef} {avg : List ColRef} {key : Column} {cols : List Column} (hm : ∀ t ∈ mem, t.WF t.rows ∧ t.Clean t.rows)
    (hk : g.get mem = .ok key) (hc : mapRes (·.get mem) avg = .ok cols) {c : ColRef} (hcm : c ∈ avg) (hne : c.tbl ≠ g.tbl)
    (rnd : Nat → Nat → Nat → Nat → Byte) (rndF : Nat → Nat → Byte) (L cs : Nat) (enc : Row → Row) (p0 p1 : ComposedPerm) (G : GmwEnv)
    (junk0 junk1 : Nat → Nat → Byte) : sharedGroupBy rnd rndF L cs enc p0 p1 G junk0 junk1 mem g avg = .error .throw := by
  obtain ⟨m0, m1, e, hs⟩ := EndToEnd.shareMem_ok (rnd := rnd) (rndF := rndF) hm
  obtain ⟨k0, k1, a0, a1, -⟩ := hs g _ hk
  obtain ⟨xs, -, -, x0, -, -⟩ := EndToEnd.sel_ok hs hc
  obtain ⟨t, ht, -⟩ := get_ok.mp a0
  have : mkInp m0 g avg = .error .throw := by
    unfold mkInp
    rw [Gmw.rd_ok_iff.mpr ht, ok_bind, a0, ok_bind, x0, ok_bind]
    have : (avg.any fun c => c.tbl != g.tbl) = true := List.any_eq_true.mpr ⟨c, hcm, by simpa using hne⟩
    rw [this]
    rfl
  unfold sharedGroupBy
  rw [e, ok_bind]
  simp only []
  rw [this]
  rfl

/-- **C81 without flags**: the shared group-by reads flags that are not there, for every table with a row. -/
theorem C81_no_flags {mem : List Table} {g : ColRef} {avg : List ColRef} {i : Inp} (hm : ∀ t ∈ mem, t.WF t.rows ∧ t.Clean t.rows)
    (hi : mkInp mem g avg = .ok i) (hact : i.act = []) (hn : 0 < numRows mem g.tbl)
    (rnd : Nat → Nat → Nat → Nat → Byte) (rndF : Nat → Nat → Byte) (L cs : Nat) (enc : Row → Row) (p0 p1 : ComposedPerm) (G : GmwEnv)
    (junk0 junk1 : Nat → Nat → Byte) : sharedGroupBy rnd rndF L cs enc p0 p1 G junk0 junk1 mem g avg = .error .ub := by
  obtain ⟨m0, m1, i0, i1, e, e0, e1, hkey, -, l0, -, -⟩ := setup hm hi rnd rndF
  unfold sharedGroupBy
  rw [e, ok_bind]
  simp only []
  rw [e0, ok_bind, e1, ok_bind]
  have hl : i0.act.length < i0.key.data.rows.length := by
    rw [l0, hact, hkey.wf0.shape.1]; exact hn
  unfold GroupBy.groupByGmw GroupBy.loadKeys
  rw [if_pos hl]
  rfl

/-- The table `average` is called on afterwards, for any flags of the table it reads: a row per group at the place of its first row, whose flag is
the one this row had, with the sums and the count over all rows of the group, active or not. -/
theorem C81_result {mem : List Table} {dst : Nat} {g : ColRef} {avg : List ColRef} {i : Inp} (hm : ∀ t ∈ mem, t.WF t.rows ∧ t.Clean t.rows)
    (hi : mkInp mem g avg = .ok i) (hb : ∀ c ∈ i.avg, c.info.bits % 8 = 0) (hnd : (g :: avg).Nodup) (hd : dst < mem.length) :
    ∃ mem' t, averageMem mem dst g avg = .ok mem' ∧ mem'[dst]? = some t ∧ t.getColumnInfo = infos i ∧ t.isActive.length = numRows mem g.tbl ∧
      ∀ r < numRows mem g.tbl,
        (Table.FirstOf i.key r → t.isActive[r]? = some (if i.act = [] then 1 else i.act.getD r 0) ∧
          ((if i.act = [] then (1 : Byte) else i.act.getD r 0) ≠ 0 → t.rowAt r = Table.groupRow i.key i.avg r (Table.groupOf i.key (numRows mem g.tbl) r))) ∧
        (¬ Table.FirstOf i.key r → t.isActive[r]? = some 0) := by
  obtain ⟨wk, wa, wf⟩ := avg_wf hm hi
  obtain ⟨t, e, hl, hinf, hrow⟩ := Table.C18_average_partial wk wa hb wf
  obtain ⟨mem', em, -, hget, -⟩ := averageMem_ok hi wk wa hnd hd e
  exact ⟨mem', t, em, hget, hinf, hl, hrow⟩

/-! ## What `average` does to the table it reads -/

/-- Called on another table, `average` leaves the flags and the columns it is not given as they were, and sorts the columns it is given by the key: the
rows of the table are mixed up. -/
theorem C81_effect {mem : List Table} {dst : Nat} {g : ColRef} {avg : List ColRef} {i : Inp} (hm : ∀ t ∈ mem, t.WF t.rows ∧ t.Clean t.rows)
    (hi : mkInp mem g avg = .ok i) (hb : ∀ c ∈ i.avg, c.info.bits % 8 = 0) (hnd : (g :: avg).Nodup) (hd : dst < mem.length) :
    ∃ (mem' : List Table) (p : List Nat), averageMem mem dst g avg = .ok mem' ∧ mem'.length = mem.length ∧ IsBijection p ∧ p.length = numRows mem g.tbl ∧
      (∀ a b (ha : a < p.length) (hb : b < p.length), a < b → number i.key p[a] < number i.key p[b] ∨ (number i.key p[a] = number i.key p[b] ∧ p[a] < p[b])) ∧
      (∀ k, k ≠ dst → mem'[k]?.map Table.isActive = mem[k]?.map Table.isActive) ∧
      (∀ c r, c.tbl ≠ dst → c ∉ g :: avg → cell mem' c r = cell mem c r) ∧
      ∀ c ∈ g :: avg, c.tbl ≠ dst → ∀ r (hr : r < p.length), cell mem' c r = cell mem c p[r] := by
  obtain ⟨wk, wa, wf⟩ := avg_wf hm hi
  obtain ⟨t, e, -⟩ := Table.C18_average_partial wk wa hb wf
  obtain ⟨mem', em, hl, -, hf, hc, hs⟩ := averageMem_ok hi wk wa hnd hd e
  obtain ⟨p1, p2, p3⟩ := plainSort_spec wk.shape
  obtain ⟨h1, h2, h3, -⟩ := mkInp_inv hi
  refine ⟨mem', plainSort i.key.data.rows, em, hl, (isBijection_iff _).mpr p1, p2, ?_, hf, ?_, ?_⟩
  · intro a b ha hb' hab
    rw [List.pairwise_iff_getElem] at p3
    have := p3 a b ha hb' hab
    unfold KeyOrder rowKey at this
    show leValue _ < leValue _ ∨ (leValue _ = leValue _ ∧ _)
    rw [leValue_eq, leValue_eq]
    exact this
  · intro c r ht hn
    have := hc c ht hn
    cases hg : c.get mem with
    | ok x => rw [EndToEnd.cell_of hg, EndToEnd.cell_of (this.trans hg)]
    | error er =>
      have hnone : ∀ m : List Table, (∀ x, c.get m ≠ .ok x) → cell m c r = none := by
        intro m hne
        cases hcell : cell m c r with
        | none => rfl
        | some v =>
          exfalso
          unfold cell at hcell
          simp only [Option.bind_eq_bind, Option.bind_eq_some_iff] at hcell
          obtain ⟨t, q1, x, q2, -⟩ := hcell
          exact hne x (get_ok.mpr ⟨t, q1, q2⟩)
      rw [hnone mem (by rw [hg]; simp), hnone mem' (by rw [this, hg]; simp)]
  · intro c hcm ht r hr
    have hex : ∃ x, c.get mem = .ok x ∧ x.WF (numRows mem g.tbl) := by
      rcases List.mem_cons.mp hcm with rfl | hcm
      · exact ⟨_, h1, wk⟩
      · obtain ⟨xs, rfl, hx, hg⟩ := sel_pairs h2
        obtain ⟨x, hxm, rfl⟩ := List.mem_map.mp hcm
        exact ⟨_, hg x hxm, wa _ (by rw [hx]; exact List.mem_map.mpr ⟨x, hxm, rfl⟩)⟩
    obtain ⟨x, hx, wx⟩ := hex
    rw [EndToEnd.cell_of hx, EndToEnd.cell_of (hs c hcm ht x hx)]
    show (gather _ _)[r]? = _
    rw [gather_getElem? (by rw [wx.shape.1, ← p2]; exact p1.1), List.getElem?_eq_getElem hr]
    rfl

/-! ## Where the two differ -/

/-- A key of seven bits, a column to add up and a third column; an empty table for the result. -/
def two (fl : List Byte) (k0 k1 : Byte) : List Table :=
  [⟨fl, [⟨⟨[107], .int, 7⟩, ⟨7, 1, [[k0], [k1]]⟩⟩, ⟨⟨[97], .int, 8⟩, ⟨8, 1, [[1], [2]]⟩⟩, ⟨⟨[98], .int, 8⟩, ⟨8, 1, [[65], [66]]⟩⟩]⟩, ⟨[], []⟩]

theorem two_wf {fl : List Byte} (hf : fl.length = 2) {k0 k1 : Byte} (h0 : k0.getLsbD 7 = false) (h1 : k1.getLsbD 7 = false) :
    ∀ t ∈ two fl k0 k1, t.WF t.rows ∧ t.Clean t.rows := by
  intro t ht
  unfold two at ht
  rcases List.mem_cons.mp ht with rfl | ht
  · show Table.WF _ 2 ∧ Table.Clean _ 2
    refine ⟨⟨?_, by simp, by simp, Or.inr hf⟩, ?_⟩
    · intro c hc
      simp only [List.mem_cons, List.not_mem_nil, or_false] at hc
      rcases hc with rfl | rfl | rfl <;> exact ⟨rfl, by simp [divCeil], ⟨rfl, by simp [divCeil]⟩, by simp⟩
    · intro c hc i hi k hk
      simp only [List.mem_cons, List.not_mem_nil, or_false] at hc
      have hi' : i = 0 ∨ i = 1 := by omega
      rcases hc with rfl | rfl | rfl
      · by_cases h7 : k = 7
        · subst h7
          rcases hi' with rfl | rfl
          · exact h0
          · exact h1
        · have : 7 ≤ k := hk
          apply bitOf_ge
          rcases hi' with rfl | rfl <;> simp <;> omega
      · have : 8 ≤ k := hk
        apply bitOf_ge
        rcases hi' with rfl | rfl <;> simp <;> omega
      · have : 8 ≤ k := hk
        apply bitOf_ge
        rcases hi' with rfl | rfl <;> simp <;> omega
  · rw [List.mem_singleton.mp ht]
    exact ⟨⟨by simp, by simp, fun _ => rfl, Or.inl rfl⟩, by intro c hc; simp at hc⟩

/-- The input for `two`. -/
def twoInp (fl : List Byte) (k0 k1 : Byte) : Inp :=
  ⟨⟨⟨[107], .int, 7⟩, ⟨7, 1, [[k0], [k1]]⟩⟩, [⟨⟨[97], .int, 8⟩, ⟨8, 1, [[1], [2]]⟩⟩], fl⟩

theorem two_inp (fl : List Byte) (k0 k1 : Byte) : mkInp (two fl k0 k1) ⟨0, 0⟩ [⟨0, 1⟩] = .ok (twoInp fl k0 k1) := rfl

/-- Circuits and correlations for tables of two rows exist. -/
theorem two_env : ∃ (G : GmwEnv) (p0 p1 : ComposedPerm), ∀ (fl : List Byte) (k0 k1 : Byte), EnvOk G 2 (2 ^ 3) 2 (sizes (twoInp fl k0 k1)) ∧
    ValidComposed 2 (Extract.budget (permBytes (dataBits (twoInp fl k0 k1) (2 ^ 3)) (2 ^ 3) false)) 0
      (Extract.budget (permBytes (dataBits (twoInp fl k0 k1) (2 ^ 3)) (2 ^ 3) false)) 0 p0 p1 := by
  obtain ⟨G, hG⟩ := GroupBy.env_exists (n := 2) (bits := 2 ^ 3) (L := 2) (ss := sizes (twoInp [] 0 0)) (by decide) (by decide) (by decide) (by decide)
    (by decide) (fun _ _ => 5) (fun _ _ => true) (fun _ _ _ => true)
  obtain ⟨p0, p1, hp⟩ := GroupBy.anyComposed 2 (permBytes (dataBits (twoInp [] 0 0) (2 ^ 3)) (2 ^ 3) false)
  exact ⟨G, p0, p1, fun _ _ _ => ⟨hG, hp⟩⟩

/-- The shared group-by of `two`. -/
theorem two_shared {fl : List Byte} (hf : fl.length = 2) (h01 : ∀ f ∈ fl, f = 0 ∨ f = 1) {k0 k1 : Byte} (h0 : k0.getLsbD 7 = false) (h1 : k1.getLsbD 7 = false) :
    ∃ (G : GmwEnv) (p0 p1 : ComposedPerm) (s : Table), sharedGroupBy (fun _ _ _ _ => 3) (fun _ _ => 7) 2 48 id p0 p1 G (fun _ _ => 1) (fun _ _ => 2)
      (two fl k0 k1) ⟨0, 0⟩ [⟨0, 1⟩] = .ok s ∧ s.getColumnInfo = infos (twoInp fl k0 k1) ∧ tableRows s = grouped (twoInp fl k0 k1) := by
  obtain ⟨G, p0, p1, h⟩ := two_env
  obtain ⟨hG, hp⟩ := h fl k0 k1
  obtain ⟨s, hs⟩ := C81_shared (two_wf hf h0 h1) (two_inp fl k0 k1) hf h01
    (show ([[107], [97], [67, 111, 117, 110, 116]] : List (List Byte)).Nodup by decide) (by simp [twoInp]) (show 2 ≤ 2 by decide) (show 2 ≤ 2 ^ 32 by decide) (L := 2) (cs := 48) (k := 3)
    (enc := id) (by decide) (by decide) rfl (by decide) hG rfl hp (fun _ _ => 1) (fun _ _ => 2) (fun _ _ _ _ => 3) (fun _ _ => 7)
  exact ⟨G, p0, p1, s, hs⟩

/-- **C81 fails for inactive rows**: of two rows with key 5, the second inactive, the shared group-by gives the sum 1 and the count 1, the average of the
same table the sum 3 and the count 2. -/
theorem C81_inactive_false : ∃ (G : GmwEnv) (p0 p1 : ComposedPerm) (s : Table) (mem' : List Table) (t : Table),
    sharedGroupBy (fun _ _ _ _ => 3) (fun _ _ => 7) 2 48 id p0 p1 G (fun _ _ => 1) (fun _ _ => 2) (two [1, 0] 5 5) ⟨0, 0⟩ [⟨0, 1⟩] = .ok s ∧
    averageMem (two [1, 0] 5 5) 0 ⟨0, 0⟩ [⟨0, 1⟩] = .ok mem' ∧ mem'[0]? = some t ∧
    tableRows s = [[some [5], some [1], some [1, 0, 0, 0, 0, 0, 0, 0]]] ∧
    activeRows t = [[some [5], some [3], some [2, 0, 0, 0, 0, 0, 0, 0]]] := by
  obtain ⟨G, p0, p1, s, e, -, hr⟩ := two_shared (fl := [1, 0]) rfl (by decide) (k0 := 5) (k1 := 5) (by decide) (by decide)
  have ha : Table.average (twoInp [1, 0] 5 5).key (twoInp [1, 0] 5 5).avg (twoInp [1, 0] 5 5).act =
      .ok ⟨[1, 0], [⟨⟨[107], .int, 8⟩, ⟨8, 1, [[5], [0]]⟩⟩, ⟨⟨[97], .int, 8⟩, ⟨8, 1, [[3], [0]]⟩⟩,
        ⟨⟨Table.countName, .int, 64⟩, ⟨64, 8, [[2, 0, 0, 0, 0, 0, 0, 0], [0, 0, 0, 0, 0, 0, 0, 0]]⟩⟩]⟩ := by
    simp only [twoInp, Table.average, Table.sort_two]
    decide +kernel
  obtain ⟨wk, wa, -⟩ := avg_wf (two_wf (fl := [1, 0]) rfl (k0 := 5) (k1 := 5) (by decide) (by decide)) (two_inp [1, 0] 5 5)
  obtain ⟨mem', em, -, ht, -⟩ := averageMem_ok (dst := 0) (two_inp [1, 0] 5 5) wk wa (by decide) (by decide) ha
  exact ⟨G, p0, p1, s, mem', _, e, em, ht, by rw [hr]; decide, by decide⟩

/-- **C81 fails for a group whose first row is inactive**: the shared group-by gives its sum, the average has no row for it. -/
theorem C81_lost_false : ∃ (G : GmwEnv) (p0 p1 : ComposedPerm) (s : Table) (mem' : List Table) (t : Table),
    sharedGroupBy (fun _ _ _ _ => 3) (fun _ _ => 7) 2 48 id p0 p1 G (fun _ _ => 1) (fun _ _ => 2) (two [0, 1] 5 5) ⟨0, 0⟩ [⟨0, 1⟩] = .ok s ∧
    averageMem (two [0, 1] 5 5) 0 ⟨0, 0⟩ [⟨0, 1⟩] = .ok mem' ∧ mem'[0]? = some t ∧
    tableRows s = [[some [5], some [2], some [1, 0, 0, 0, 0, 0, 0, 0]]] ∧ activeRows t = [] := by
  obtain ⟨G, p0, p1, s, e, -, hr⟩ := two_shared (fl := [0, 1]) rfl (by decide) (k0 := 5) (k1 := 5) (by decide) (by decide)
  have ha : Table.average (twoInp [0, 1] 5 5).key (twoInp [0, 1] 5 5).avg (twoInp [0, 1] 5 5).act =
      .ok ⟨[0, 0], [⟨⟨[107], .int, 8⟩, ⟨8, 1, [[0], [0]]⟩⟩, ⟨⟨[97], .int, 8⟩, ⟨8, 1, [[0], [0]]⟩⟩,
        ⟨⟨Table.countName, .int, 64⟩, ⟨64, 8, [[0, 0, 0, 0, 0, 0, 0, 0], [0, 0, 0, 0, 0, 0, 0, 0]]⟩⟩]⟩ := by
    simp only [twoInp, Table.average, Table.sort_two]
    decide +kernel
  obtain ⟨wk, wa, -⟩ := avg_wf (two_wf (fl := [0, 1]) rfl (k0 := 5) (k1 := 5) (by decide) (by decide)) (two_inp [0, 1] 5 5)
  obtain ⟨mem', em, -, ht, -⟩ := averageMem_ok (dst := 0) (two_inp [0, 1] 5 5) wk wa (by decide) (by decide) ha
  exact ⟨G, p0, p1, s, mem', _, e, em, ht, by rw [hr]; decide, by decide⟩

/-- **C81, the table that is read**: after the average of table 0 into table 1, the row (9, 1, "A") of table 0 has become (5, 2, "A"). -/
theorem C81_source_false : ∃ mem' : List Table, averageMem (two [1, 1] 9 5) 1 ⟨0, 0⟩ [⟨0, 1⟩] = .ok mem' ∧
    [cell (two [1, 1] 9 5) ⟨0, 0⟩ 0, cell (two [1, 1] 9 5) ⟨0, 1⟩ 0, cell (two [1, 1] 9 5) ⟨0, 2⟩ 0] = [some [9], some [1], some [65]] ∧
    [cell mem' ⟨0, 0⟩ 0, cell mem' ⟨0, 1⟩ 0, cell mem' ⟨0, 2⟩ 0] = [some [5], some [2], some [65]] := by
  have hsort : plainSort [[9], [5]] = [1, 0] :=
    plainSort_eq (n := 2) (c := 1) ⟨rfl, by simp⟩ ⟨by decide, by decide⟩ rfl (by simp [KeyOrder, rowKey]; decide)
  obtain ⟨wk, wa, wf⟩ := avg_wf (two_wf (fl := [1, 1]) rfl (k0 := 9) (k1 := 5) (by decide) (by decide)) (two_inp [1, 1] 9 5)
  obtain ⟨t, e, -⟩ := Table.C18_average_partial wk wa (by simp [twoInp]) wf
  obtain ⟨mem', em, -, -, -, h1, h2⟩ := averageMem_ok (dst := 1) (two_inp [1, 1] 9 5) wk wa (by decide) (by decide) e
  refine ⟨mem', em, by decide, ?_⟩
  rw [EndToEnd.cell_of (h2 ⟨0, 0⟩ (by decide) (by decide) _ rfl), EndToEnd.cell_of (h2 ⟨0, 1⟩ (by decide) (by decide) _ rfl),
    EndToEnd.cell_of ((h1 ⟨0, 2⟩ (by decide) (by decide)).trans rfl)]
  show [(gather (plainSort [[9], [5]]) _)[0]?, (gather (plainSort [[9], [5]]) _)[0]?, _] = _
  rw [hsort]
  decide

/-! ## The hypotheses are met -/

/-- Two active rows with different keys: both group-bys give two rows. -/
example : ∃ (G : GmwEnv) (p0 p1 : ComposedPerm) (s : Table) (mem' : List Table) (t : Table),
    sharedGroupBy (fun _ _ _ _ => 3) (fun _ _ => 7) 2 48 id p0 p1 G (fun _ _ => 1) (fun _ _ => 2) (two [1, 1] 9 5) ⟨0, 0⟩ [⟨0, 1⟩] = .ok s ∧
    averageMem (two [1, 1] 9 5) 1 ⟨0, 0⟩ [⟨0, 1⟩] = .ok mem' ∧ mem'[1]? = some t ∧ s.getColumnInfo = t.getColumnInfo ∧ tableRows s = activeRows t ∧
    tableRows s = [[some [9], some [1], some [1, 0, 0, 0, 0, 0, 0, 0]], [some [5], some [2], some [1, 0, 0, 0, 0, 0, 0, 0]]] := by
  obtain ⟨G, p0, p1, h⟩ := two_env
  obtain ⟨hG, hp⟩ := h [1, 1] 9 5
  have hw := two_wf (fl := [1, 1]) rfl (k0 := 9) (k1 := 5) (by decide) (by decide)
  obtain ⟨s, mem', t, h1, h2, h3, h4, h5⟩ := C81_agree_partial (dst := 1) hw (two_inp [1, 1] 9 5) rfl (by decide) (by decide) (by simp [twoInp]) (by decide)
    (by decide) (L := 2) (cs := 48) (k := 3) (enc := id) (by decide) (by decide) rfl (by decide) hG rfl hp (fun _ _ => 1) (fun _ _ => 2)
    (fun _ _ _ _ => 3) (fun _ _ => 7) (by decide) (by decide)
  obtain ⟨s', e', -, hr⟩ := C81_shared hw (two_inp [1, 1] 9 5) rfl (by decide) (by decide) (by simp [twoInp]) (by decide)
    (by decide) (L := 2) (cs := 48) (k := 3) (enc := id) (by decide) (by decide) rfl (by decide) hG rfl hp (fun _ _ => 1) (fun _ _ => 2)
    (fun _ _ _ _ => 3) (fun _ _ => 7)
  rw [h1] at e'
  injection e' with e'
  subst e'
  exact ⟨G, p0, p1, s, mem', t, h1, h2, h3, h4, h5, by rw [hr]; decide⟩

/-- `C81_effect` for the same tables. -/
example : ∃ mem' : List Table, averageMem (two [1, 1] 9 5) 1 ⟨0, 0⟩ [⟨0, 1⟩] = .ok mem' ∧ mem'.length = 2 := by
  obtain ⟨mem', p, h1, h2, -⟩ := C81_effect (dst := 1) (two_wf (fl := [1, 1]) rfl (k0 := 9) (k1 := 5) (by decide) (by decide)) (two_inp [1, 1] 9 5)
    (by simp [twoInp]) (by decide) (by decide)
  exact ⟨mem', h1, h2⟩

/-- `C81_result` with an inactive row and keys that are not in order. -/
example : ∃ (mem' : List Table) (t : Table), averageMem (two [1, 0] 9 5) 1 ⟨0, 0⟩ [⟨0, 1⟩] = .ok mem' ∧ mem'[1]? = some t ∧ t.isActive[0]? = some 1 ∧ t.isActive[1]? = some 0 := by
  obtain ⟨mem', t, h1, h2, -, -, h⟩ := C81_result (dst := 1) (two_wf (fl := [1, 0]) rfl (k0 := 9) (k1 := 5) (by decide) (by decide)) (two_inp [1, 0] 9 5)
    (by simp [twoInp]) (by decide) (by decide)
  exact ⟨mem', t, h1, h2, ((h 0 (by decide)).1 (by intro j hj; omega)).1, ((h 1 (by decide)).1 (by
    intro j hj
    obtain rfl : j = 0 := by omega
    decide)).1⟩

/-- `C81_refused`: a column of another table. -/
example (G : GmwEnv) (p0 p1 : ComposedPerm) : sharedGroupBy (fun _ _ _ _ => 3) (fun _ _ => 7) 2 48 id p0 p1 G (fun _ _ => 1) (fun _ _ => 2)
    (two [1, 1] 9 5 ++ two [1, 1] 9 5) ⟨0, 0⟩ [⟨2, 1⟩] = .error .throw := by
  have hw := two_wf (fl := [1, 1]) rfl (k0 := 9) (k1 := 5) (by decide) (by decide)
  exact C81_refused (mem := two [1, 1] 9 5 ++ two [1, 1] 9 5) (fun t ht => by
    rcases List.mem_append.mp ht with h | h <;> exact hw t h) rfl rfl (c := ⟨2, 1⟩) (by simp) (by decide) _ _ _ _ _ _ _ _ _ _

/-- `C81_no_flags`: a table without flags. -/
example (G : GmwEnv) (p0 p1 : ComposedPerm) : sharedGroupBy (fun _ _ _ _ => 3) (fun _ _ => 7) 2 48 id p0 p1 G (fun _ _ => 1) (fun _ _ => 2)
    [⟨[], [⟨⟨[107], .int, 8⟩, ⟨8, 1, [[5], [9]]⟩⟩]⟩] ⟨0, 0⟩ [] = .error .ub := by
  refine C81_no_flags (i := ⟨⟨⟨[107], .int, 8⟩, ⟨8, 1, [[5], [9]]⟩⟩, [], []⟩) ?_ rfl rfl (by decide) _ _ _ _ _ _ _ _ _ _
  intro t ht
  rw [List.mem_singleton.mp ht]
  show Table.WF _ 2 ∧ Table.Clean _ 2
  refine ⟨⟨?_, by simp, by simp, Or.inl rfl⟩, ?_⟩
  · intro c hc
    rw [List.mem_singleton.mp hc]
    exact ⟨rfl, by decide, ⟨rfl, by simp [divCeil]⟩, by simp⟩
  · intro c hc i hi k hk
    rw [List.mem_singleton.mp hc] at hk ⊢
    have : 8 ≤ k := hk
    apply bitOf_ge
    have hi' : i = 0 ∨ i = 1 := by omega
    rcases hi' with rfl | rfl <;> simp <;> omega

end GroupEnd
end SecJoin
