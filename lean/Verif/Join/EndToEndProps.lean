import Verif.Join.EndToEndLemmas
/-!
# C79: the shared join reveals the rows of the plaintext join
-/
namespace SecJoin
namespace EndToEnd
open OmJoin (Query GmwEnv OneToMany SameQuery shown joinRows pairRow matchOf dataBytes permBytes removeBytes)
open Extract (revRow)
open Gmw.Wires (Cir)

/-- Both parties' queries after the sharing. -/
theorem setup_of {mem m0 m1 : List Table} {l r : ColRef} {sel : List ColRef} {q : Query}
    (hs : ∀ c x, ColRef.get mem c = .ok x → ∃ x0 x1, c.get m0 = .ok x0 ∧ c.get m1 = .ok x1 ∧ SharedCol (numRows mem c.tbl) x x0 x1)
    (hq : mkQuery mem l r sel = .ok q) :
    ∃ q0 q1, mkQuery m0 l r sel = .ok q0 ∧ mkQuery m1 l r sel = .ok q1 ∧
      SameQuery (numRows mem l.tbl) (numRows mem r.tbl) q0 q1 ∧ q0.leftKey.info.bits = q.leftKey.info.bits ∧
      (∀ b, dataBytes q0.select b = dataBytes q.select b) ∧ removeBytes q0.select = removeBytes q.select ∧
      (∀ a ∈ q0.select ++ q1.select, a.2.WF (if a.1 then numRows mem l.tbl else numRows mem r.tbl)) ∧
      q0.select.map (·.2.info) = q.select.map (·.2.info) ∧ q1.select.map (·.2.info) = q.select.map (·.2.info) ∧
      q0.select.map (·.2.info.name) = q.select.map (·.2.info.name) ∧ q1.select.map (·.2.info.name) = q.select.map (·.2.info.name) ∧
      (q0.select = [] ↔ sel = []) ∧ (q1.select = [] ↔ sel = []) ∧
      (∀ i, i < numRows mem l.tbl → shown q0.leftKey q1.leftKey i = q.leftKey.data.rows.getD i []) ∧
      (∀ i, i < numRows mem r.tbl → shown q0.rightKey q1.rightKey i = q.rightKey.data.rows.getD i []) ∧
      ∀ a b, a < numRows mem l.tbl → b < numRows mem r.tbl →
        (pairRow q0 q1 a b).map some = sel.map fun c => cell mem c (if c.tbl = l.tbl then a else b) := by
  obtain ⟨cols, h1, h2, h3, h4, h5, h6⟩ := mkQuery_inv hq
  obtain ⟨lk0, lk1, l0, l1, hl⟩ := hs l _ h1
  obtain ⟨rk0, rk1, r0, r1, hr⟩ := hs r _ h2
  obtain ⟨xs, rfl, rfl, x0, x1, hx⟩ := sel_ok hs h3
  have ht : ∀ x ∈ xs, x.1.tbl = l.tbl ∨ x.1.tbl = r.tbl := fun x hxm => h4 _ (List.mem_map.mpr ⟨x, hxm, rfl⟩)
  have hsel : q.select = (queryOf l q.leftKey q.rightKey (·.2.1) xs).select := by
    rw [h6]; unfold queryOf; rw [List.zipWith_map, List.zipWith_self]
  have i0 : ∀ x ∈ xs, x.2.2.1.info = x.2.1.info := fun x hxm => (hx x hxm).2.info0
  have i1 : ∀ x ∈ xs, x.2.2.2.info = x.2.1.info := fun x hxm => (hx x hxm).2.info1
  refine ⟨queryOf l lk0 rk0 (·.2.2.1) xs, queryOf l lk1 rk1 (·.2.2.2) xs, mkQuery_ok l0 r0 x0 (by rw [hl.info0, hr.info0, h5]) ht,
    mkQuery_ok l1 r1 x1 (by rw [hl.info1, hr.info1, h5]) ht, sameQuery_of hl hr h5 ht (fun x hxm => (hx x hxm).2), ?_, ?_, ?_, ?_, ?_, ?_, ?_, ?_, ?_, ?_, ?_, ?_, ?_⟩
  · show lk0.info.bits = _; rw [hl.info0]
  · intro b; unfold dataBytes; rw [hsel, flagByte_of (g := (·.2.1)) i0]
  · rw [hsel]; exact removeBytes_of i0
  · intro a ha
    rcases List.mem_append.mp ha with h | h
    · exact select_wf ht (fun x hxm => (hx x hxm).2.wf0) a h
    · exact select_wf ht (fun x hxm => (hx x hxm).2.wf1) a h
  · rw [hsel]; exact infos_of i0
  · rw [hsel]; exact infos_of i1
  · rw [hsel]; exact names_of i0
  · rw [hsel]; exact names_of i1
  · simp [queryOf]
  · simp [queryOf]
  · exact hl.row
  · exact hr.row
  · intro a b ha hb
    rw [pairRow_of ht (fun x hxm => (hx x hxm).2) ha hb, List.map_map, List.map_map]
    apply List.map_congr_left
    intro x hxm
    obtain ⟨g, s⟩ := hx x hxm
    simp only [Function.comp]
    rw [cell_getD g s.wf]
    by_cases h : x.1.tbl = l.tbl
    · rw [if_pos h, h]; exact ha
    · rw [if_neg h, (ht x hxm).resolve_left h]; exact hb

theorem setup {mem : List Table} {l r : ColRef} {sel : List ColRef} {q : Query} (hm : ∀ t ∈ mem, t.WF t.rows ∧ t.Clean t.rows)
    (hq : mkQuery mem l r sel = .ok q) (rnd : Nat → Nat → Nat → Nat → Byte) (rndF : Nat → Nat → Byte) :
    ∃ m0 m1 q0 q1, shareMem rnd rndF 0 mem = .ok (m0, m1) ∧ mkQuery m0 l r sel = .ok q0 ∧ mkQuery m1 l r sel = .ok q1 ∧
      SameQuery (numRows mem l.tbl) (numRows mem r.tbl) q0 q1 ∧ q0.leftKey.info.bits = q.leftKey.info.bits ∧
      (∀ b, dataBytes q0.select b = dataBytes q.select b) ∧ removeBytes q0.select = removeBytes q.select ∧
      (∀ a ∈ q0.select ++ q1.select, a.2.WF (if a.1 then numRows mem l.tbl else numRows mem r.tbl)) ∧
      q0.select.map (·.2.info) = q.select.map (·.2.info) ∧ q1.select.map (·.2.info) = q.select.map (·.2.info) ∧
      q0.select.map (·.2.info.name) = q.select.map (·.2.info.name) ∧ q1.select.map (·.2.info.name) = q.select.map (·.2.info.name) ∧
      (q0.select = [] ↔ sel = []) ∧ (q1.select = [] ↔ sel = []) ∧
      (∀ i, i < numRows mem l.tbl → shown q0.leftKey q1.leftKey i = q.leftKey.data.rows.getD i []) ∧
      (∀ i, i < numRows mem r.tbl → shown q0.rightKey q1.rightKey i = q.rightKey.data.rows.getD i []) ∧
      ∀ a b, a < numRows mem l.tbl → b < numRows mem r.tbl →
        (pairRow q0 q1 a b).map some = sel.map fun c => cell mem c (if c.tbl = l.tbl then a else b) := by
  obtain ⟨m0, m1, e, hs⟩ := shareMem_ok (rnd := rnd) (rndF := rndF) hm
  obtain ⟨q0, q1, h⟩ := setup_of hs hq
  exact ⟨m0, m1, q0, q1, e, h⟩

/-- The matching pairs of the shared keys are those of the original tables. -/
theorem joinRows_pairs {mem : List Table} {l r : ColRef} {sel : List ColRef} {q q0 q1 : Query} (hm : ∀ t ∈ mem, t.WF t.rows ∧ t.Clean t.rows)
    (hlk : l.get mem = .ok q.leftKey) (hrk : r.get mem = .ok q.rightKey)
    (hl : ∀ i, i < numRows mem l.tbl → shown q0.leftKey q1.leftKey i = q.leftKey.data.rows.getD i [])
    (hr : ∀ i, i < numRows mem r.tbl → shown q0.rightKey q1.rightKey i = q.rightKey.data.rows.getD i [])
    (hp : ∀ a b, a < numRows mem l.tbl → b < numRows mem r.tbl →
      (pairRow q0 q1 a b).map some = sel.map fun c => cell mem c (if c.tbl = l.tbl then a else b)) :
    ((joinRows (numRows mem l.tbl) (numRows mem r.tbl)
      (fun a b => shown q0.leftKey q1.leftKey a = shown q0.rightKey q1.rightKey b) q0 q1).map fun x => x.map some) =
      (pairs mem l r).map fun p => sel.map fun c => cell mem c (if c.tbl = l.tbl then p.1 else p.2) := by
  obtain ⟨wl, -⟩ := get_wf hm hlk
  obtain ⟨wr, -⟩ := get_wf hm hrk
  unfold joinRows pairs
  rw [List.map_filterMap, List.map_filterMap]
  apply List.filterMap_congr
  intro b hb
  have hb := List.mem_range.mp hb
  have hmatch : matchOf (numRows mem l.tbl) (fun a b => shown q0.leftKey q1.leftKey a = shown q0.rightKey q1.rightKey b) b =
      (List.range (numRows mem l.tbl)).find? fun a => cell mem l a == cell mem r b := by
    unfold matchOf
    have : ∀ s : List Nat, (∀ a ∈ s, a < numRows mem l.tbl) →
        (s.find? fun a => decide (shown q0.leftKey q1.leftKey a = shown q0.rightKey q1.rightKey b)) = s.find? fun a => cell mem l a == cell mem r b := by
      intro s hs
      induction s with
      | nil => rfl
      | cons a s ih =>
        have ha := hs a (by simp)
        rw [List.find?_cons, List.find?_cons, ih (fun x hx => hs x (by simp [hx])), hl a ha, hr b hb, cell_getD hlk wl ha, cell_getD hrk wr hb]
        have hd : decide (q.leftKey.data.rows.getD a [] = q.rightKey.data.rows.getD b []) =
            (some (q.leftKey.data.rows.getD a []) == some (q.rightKey.data.rows.getD b [])) := by
          rw [Bool.eq_iff_iff, decide_eq_true_iff, beq_iff_eq, Option.some.injEq]
        rw [hd]
    exact this _ (fun a ha => List.mem_range.mp ha)
  rw [← hmatch]
  cases hc : matchOf (numRows mem l.tbl) (fun a b => shown q0.leftKey q1.leftKey a = shown q0.rightKey q1.rightKey b) b with
  | none => rfl
  | some a => simp only [Option.map_some]; rw [hp a b (OmJoin.matchOf_some hc).1 hb]

/-- The run of the join on shares, up to the revealing. -/
theorem join_run {mem m0 m1 : List Table} {l r : ColRef} {sel : List ColRef} {q : Query} (hm : ∀ t ∈ mem, t.WF t.rows ∧ t.Clean t.rows)
    (hsh : ∀ c x, ColRef.get mem c = .ok x → ∃ x0 x1, c.get m0 = .ok x0 ∧ c.get m1 = .ok x1 ∧ SharedCol (numRows mem c.tbl) x x0 x1)
    (hq : mkQuery mem l r sel = .ok q) (hne : sel ≠ []) (hnames : (q.select.map (·.2.info.name)).Nodup)
    (hnL : 0 < numRows mem l.tbl) (hnR : 0 < numRows mem r.tbl) (hn32 : numRows mem l.tbl + numRows mem r.tbl ≤ 2 ^ 32)
    {L cs k W : Nat} (h1 : 1 ≤ L) (h8 : L ≤ 8) (hk : q.leftKey.info.bits = 2 ^ k) (hcs : 2 ^ k ≤ cs) {enc : Row → Row}
    {G : GmwEnv} (hG : G.Ok (numRows mem l.tbl + numRows mem r.tbl) (2 ^ k) L (dataBytes q.select (2 ^ k))) {p0 p1 : ComposedPerm}
    (hW : W = 16 * ((permBytes (8 * dataBytes q.select (2 ^ k)) (2 ^ k) + 15) / 16))
    (hp : ValidComposed (numRows mem l.tbl + numRows mem r.tbl) W 0 W 0 p0 p1) :
    ∃ q0 q1 t0 t1, mkQuery m0 l r sel = .ok q0 ∧ mkQuery m1 l r sel = .ok q1 ∧ OmJoin.joinGmw L cs enc q0 q1 p0 p1 G = .ok (t0, t1) ∧
      SameQuery (numRows mem l.tbl) (numRows mem r.tbl) q0 q1 ∧
      OneToMany (numRows mem l.tbl) (numRows mem r.tbl) (fun a b => shown q0.leftKey q1.leftKey a = shown q0.rightKey q1.rightKey b) q0 q1 t0 t1 ∧
      t0.WF (numRows mem r.tbl) ∧ t1.WF (numRows mem r.tbl) ∧ t0.getColumnInfo = q.select.map (·.2.info) ∧
      t1.getColumnInfo = q.select.map (·.2.info) ∧ t0.cols ≠ [] ∧
      (∀ i, i < numRows mem l.tbl → shown q0.leftKey q1.leftKey i = q.leftKey.data.rows.getD i []) ∧
      (∀ i, i < numRows mem r.tbl → shown q0.rightKey q1.rightKey i = q.rightKey.data.rows.getD i []) ∧
      ∀ a b, a < numRows mem l.tbl → b < numRows mem r.tbl →
        (pairRow q0 q1 a b).map some = sel.map fun c => cell mem c (if c.tbl = l.tbl then a else b) := by
  obtain ⟨q0, q1, e0, e1, hs, hb, hd, -, hw, i0, i1, n0, n1, z0, z1, hl, hr, hrow⟩ := setup_of hsh hq
  obtain ⟨cols, g1, g2, -, -, hbb, -⟩ := mkQuery_inv hq
  have hpadL : ∀ i, i < numRows mem l.tbl → ∀ j, 2 ^ k ≤ j → bitOf (shown q0.leftKey q1.leftKey i) j = false := by
    intro i hi j hj
    rw [hl i hi]
    exact (get_wf hm g1).2 i hi j (by rw [hk]; exact hj)
  have hpadR : ∀ i, i < numRows mem r.tbl → ∀ j, 2 ^ k ≤ j → bitOf (shown q0.rightKey q1.rightKey i) j = false := by
    intro i hi j hj
    rw [hr i hi]
    exact (get_wf hm g2).2 i hi j (by rw [← hbb, hk]; exact hj)
  rw [← hd] at hG hW
  rw [← hb] at hk
  obtain ⟨rn, ej, hf, hlen, hrest⟩ := OmJoin.joinGmw_run (cs := cs) (enc := enc) hs hnL hnR hn32 h1 h8 hk hcs hG hW hp
  obtain ⟨t0, t1, et, ho⟩ := OmJoin.C32_join_partial (cs := cs) (enc := enc) hs hnL hnR hn32 h1 h8 hk hcs hpadL hpadR hf hlen hrest hW hp
  obtain ⟨v0, v1, o0, o1⟩ := OmJoin.join_inv et
  obtain ⟨w0, j0⟩ := OmJoin.out_wf (OmJoin.getOutput_inv o0) ho.rows0 (fun a ha => hw a (by simp [ha])) (by rw [n0]; exact hnames) (fun h => hne (z0.mp h))
  obtain ⟨w1, j1⟩ := OmJoin.out_wf (OmJoin.getOutput_inv o1) ho.rows1 (fun a ha => hw a (by simp [ha])) (by rw [n1]; exact hnames) (fun h => hne (z1.mp h))
  have hcols : t0.cols ≠ [] := by
    intro h
    have := w0.empty h
    omega
  exact ⟨q0, q1, t0, t1, e0, e1, by rw [ej]; exact et, hs, ho, w0, w1, by rw [j0, i0], by rw [j1, i1], hcols, hl, hr, hrow⟩

/-- **C79, the shared join.** The revealed table has the selected columns and exactly the rows of the matching pairs, in the order of the
right rows, for every sharing. A column counts as a left one if its table is that of the left key. -/
theorem C79_shared {mem : List Table} {l r : ColRef} {sel : List ColRef} {q : Query} (hm : ∀ t ∈ mem, t.WF t.rows ∧ t.Clean t.rows)
    (hq : mkQuery mem l r sel = .ok q) (hne : sel ≠ []) (hnames : (q.select.map (·.2.info.name)).Nodup)
    (hnL : 0 < numRows mem l.tbl) (hnR : 0 < numRows mem r.tbl) (hn32 : numRows mem l.tbl + numRows mem r.tbl ≤ 2 ^ 32)
    {L cs k W : Nat} (h1 : 1 ≤ L) (h8 : L ≤ 8) (hk : q.leftKey.info.bits = 2 ^ k) (hcs : 2 ^ k ≤ cs) {enc : Row → Row}
    {G : GmwEnv} (hG : G.Ok (numRows mem l.tbl + numRows mem r.tbl) (2 ^ k) L (dataBytes q.select (2 ^ k))) {p0 p1 : ComposedPerm}
    (hW : W = 16 * ((permBytes (8 * dataBytes q.select (2 ^ k)) (2 ^ k) + 15) / 16))
    (hp : ValidComposed (numRows mem l.tbl + numRows mem r.tbl) W 0 W 0 p0 p1)
    (rnd : Nat → Nat → Nat → Nat → Byte) (rndF : Nat → Nat → Byte) :
    ∃ s, sharedJoin rnd rndF L cs enc p0 p1 G mem l r sel = .ok s ∧ s.getColumnInfo = q.select.map (·.2.info) ∧
      tableRows s = (pairs mem l r).map fun p => sel.map fun c => cell mem c (if c.tbl = l.tbl then p.1 else p.2) := by
  obtain ⟨m0, m1, e, hsh⟩ := shareMem_ok (rnd := rnd) (rndF := rndF) hm
  obtain ⟨q0, q1, t0, t1, e0, e1, et, hs, ho, w0, w1, i0, i1, hcols, hl, hr, hrow⟩ := join_run (cs := cs) (enc := enc) hm hsh hq hne hnames hnL hnR hn32 h1 h8 hk
    hcs hG hW hp
  obtain ⟨cols, g1, g2, -, -, -, -⟩ := mkQuery_inv hq
  obtain ⟨s, es, hi, hrows⟩ := reveal_join ho hs w0 w1 (by rw [i0, i1]) hcols
  refine ⟨s, ?_, by rw [hi, i0], ?_⟩
  · unfold sharedJoin
    rw [e, ok_bind]
    simp only []
    rw [e0, ok_bind, e1, ok_bind, et, ok_bind]
    exact es
  · rw [hrows]
    exact joinRows_pairs hm g1 g2 hl hr hrow

/-- **C79 with the removal of inactive rows inside the protocol**: the same rows in some order. -/
theorem C79_removed {mem : List Table} {l r : ColRef} {sel : List ColRef} {q : Query} (hm : ∀ t ∈ mem, t.WF t.rows ∧ t.Clean t.rows)
    (hq : mkQuery mem l r sel = .ok q) (hne : sel ≠ []) (hnames : (q.select.map (·.2.info.name)).Nodup)
    (hnL : 0 < numRows mem l.tbl) (hnR : 0 < numRows mem r.tbl) (hn32 : numRows mem l.tbl + numRows mem r.tbl ≤ 2 ^ 32)
    {L cs k W V : Nat} (h1 : 1 ≤ L) (h8 : L ≤ 8) (hk : q.leftKey.info.bits = 2 ^ k) (hcs : 2 ^ k ≤ cs) {enc : Row → Row}
    {G : GmwEnv} (hG : G.Ok (numRows mem l.tbl + numRows mem r.tbl) (2 ^ k) L (dataBytes q.select (2 ^ k))) {p0 p1 e0 e1 : ComposedPerm}
    (hW : W = 16 * ((permBytes (8 * dataBytes q.select (2 ^ k)) (2 ^ k) + 15) / 16))
    (hp : ValidComposed (numRows mem l.tbl + numRows mem r.tbl) W 0 W 0 p0 p1)
    (hV : V = Extract.budget (removeBytes q.select)) (hv : ValidComposed (numRows mem r.tbl) V 0 V 0 e0 e1)
    (rnd : Nat → Nat → Nat → Nat → Byte) (rndF : Nat → Nat → Byte) :
    ∃ s, sharedJoinActive rnd rndF L cs enc p0 p1 e0 e1 G mem l r sel = .ok s ∧ s.getColumnInfo = q.select.map (·.2.info) ∧
      (tableRows s).Perm ((pairs mem l r).map fun p => sel.map fun c => cell mem c (if c.tbl = l.tbl then p.1 else p.2)) := by
  obtain ⟨m0, m1, q0, q1, e, g0, g1, hs, hb, hd, hrem, hw, i0, i1, n0, -, z0, -, hl, hr, hrow⟩ := setup hm hq rnd rndF
  obtain ⟨cols, f1, f2, -, -, hbb, -⟩ := mkQuery_inv hq
  have hpadL : ∀ i, i < numRows mem l.tbl → ∀ j, 2 ^ k ≤ j → bitOf (shown q0.leftKey q1.leftKey i) j = false := by
    intro i hi j hj
    rw [hl i hi]
    exact (get_wf hm f1).2 i hi j (by rw [hk]; exact hj)
  have hpadR : ∀ i, i < numRows mem r.tbl → ∀ j, 2 ^ k ≤ j → bitOf (shown q0.rightKey q1.rightKey i) j = false := by
    intro i hi j hj
    rw [hr i hi]
    exact (get_wf hm f2).2 i hi j (by rw [← hbb, hk]; exact hj)
  rw [← hd] at hG hW
  rw [← hb] at hk
  obtain ⟨u0, u1, w, eu, a0, a1, w0, w1, j0, j1, hperm⟩ := OmJoin.C32_gmw_removed_partial (cs := cs) (enc := enc) hs hnL hnR hn32 h1 h8 hk hcs hpadL hpadR
    hG hW hp hw (by rw [i0, i1]) (by rw [n0]; exact hnames) (fun h => hne (z0.mp h)) (by rw [hrem]; exact hV) hv
  have hi : u0.getColumnInfo = u1.getColumnInfo := by rw [j0, j1]
  obtain ⟨es, -⟩ := Table.C10_reveal w0 w1 hi (by rw [a0, a1]) (by rw [a0]; simp)
  refine ⟨Table.joined u0 u1 w, ?_, ?_, ?_⟩
  · unfold sharedJoinActive
    rw [e, ok_bind]
    simp only []
    rw [g0, ok_bind, g1, ok_bind, eu, ok_bind]
    exact es
  · rw [Table.joined_eq w0 w1 hi (Or.inl a0), ← i0, ← j0]
    have hlen : u0.cols.length = u1.cols.length := by simpa [Table.getColumnInfo] using congrArg List.length hi
    unfold Table.getColumnInfo Table.xcols
    apply List.ext_getElem
    · simp [hlen]
    · intro i h2 h3; simp
  · have hne0 : u0.cols ≠ [] := by
      intro h
      have h' : u0.getColumnInfo = [] := by simp [Table.getColumnInfo, h]
      rw [j0] at h'
      exact hne (z0.mp (by simpa using h'))
    have hrows : tableRows (Table.joined u0 u1 w) = ((List.range w).map (revRow u0 u1)).map fun x => x.map some := by
      have hr' : (Table.joined u0 u1 w).rows = w := by
        have hlen : u0.cols.length = u1.cols.length := by simpa [Table.getColumnInfo] using congrArg List.length hi
        unfold Table.joined Table.rows
        cases h0 : u0.cols with
        | nil => exact absurd h0 hne0
        | cons a as =>
          cases h1 : u1.cols with
          | nil => rw [h0, h1] at hlen; simp at hlen
          | cons b bs => simp
      unfold tableRows
      rw [hr', List.map_map]
      apply List.map_congr_left
      intro i hi'
      exact joined_row w0 w1 hi (Or.inl a0) (List.mem_range.mp hi')
    rw [hrows, ← joinRows_pairs hm f1 f2 hl hr hrow]
    exact hperm.map _

/-- The selected columns with their references. -/
theorem sel_pairs {mem : List Table} : ∀ {sel : List ColRef} {cols : List Column}, mapRes (·.get mem) sel = .ok cols →
    ∃ xs : List (ColRef × Column), sel = xs.map (·.1) ∧ cols = xs.map (·.2) ∧ ∀ x ∈ xs, x.1.get mem = .ok x.2
  | [], cols, e => by
    cases e
    exact ⟨[], rfl, rfl, by simp⟩
  | c :: sel, cols, e => by
    unfold mapRes at e
    obtain ⟨x, h1, e⟩ := OmJoin.bind_inv e
    obtain ⟨ys, h2, e⟩ := OmJoin.bind_inv e
    cases e
    obtain ⟨xs, rfl, rfl, h⟩ := sel_pairs h2
    exact ⟨(c, x) :: xs, rfl, rfl, fun y hy => by
      rcases List.mem_cons.mp hy with rfl | hy
      · exact h1
      · exact h y hy⟩

/-- The side the plaintext join takes a column from, Table.cpp 779-781 and 797. -/
def sideOf (l r : ColRef) (c : ColRef) : Table.Side := if c.tbl = r.tbl then .right else if c.tbl = l.tbl then .left else .other

/-- **C79, the plaintext join** of tables with distinct left keys: its active rows are those of the matching pairs in some order. A column
counts as a right one if its table is that of the right key. -/
theorem C79_plain {mem : List Table} {l r : ColRef} {sel : List ColRef} {q : Query} (hm : ∀ t ∈ mem, t.WF t.rows ∧ t.Clean t.rows)
    (hq : mkQuery mem l r sel = .ok q) (hnames : (q.select.map (·.2.info.name)).Nodup)
    (hdist : ∀ a b, a < b → b < numRows mem l.tbl → cell mem l a ≠ cell mem l b) :
    ∃ t, plainJoin mem l r sel = .ok t ∧ t.getColumnInfo = q.select.map (·.2.info) ∧
      (activeRows t).Perm ((pairs mem l r).map fun p => sel.map fun c => cell mem c (if c.tbl = r.tbl then p.2 else p.1)) := by
  obtain ⟨cols, h1, h2, h3, h4, h5, h6⟩ := mkQuery_inv hq
  obtain ⟨xs, rfl, rfl, hx⟩ := sel_pairs h3
  obtain ⟨wl, -⟩ := get_wf hm h1
  obtain ⟨wr, -⟩ := get_wf hm h2
  rw [List.zipWith_map, List.zipWith_self] at h6
  have hsel : List.zipWith (fun (c : ColRef) (x : Column) => (if c.tbl = r.tbl then Table.Side.right else if c.tbl = l.tbl then .left else .other, x)) (xs.map (·.1)) (xs.map (·.2)) =
      xs.map fun x => (sideOf l r x.1, x.2) := by
    rw [List.zipWith_map, List.zipWith_self]; rfl
  have hside : ∀ s ∈ xs.map fun x => (sideOf l r x.1, x.2), (s.1 = .left ∧ s.2.WF (numRows mem l.tbl)) ∨ (s.1 = .right ∧ s.2.WF (numRows mem r.tbl)) := by
    intro s hs
    obtain ⟨x, hxm, rfl⟩ := List.mem_map.mp hs
    have hw := (get_wf hm (hx x hxm)).1
    unfold sideOf
    by_cases hr : x.1.tbl = r.tbl
    · right; exact ⟨by simp [hr], by rw [← hr]; exact hw⟩
    · have hl := (h4 x.1 (List.mem_map.mpr ⟨x, hxm, rfl⟩)).resolve_right hr
      left; exact ⟨by simp only []; rw [if_neg hr, if_pos hl], by rw [← hl]; exact hw⟩
  have hnd : q.leftKey.data.rows.Nodup := by
    rw [List.nodup_iff_getElem?_ne_getElem?]
    intro a b hab hb
    rw [wl.shape.1] at hb
    rw [← cell_of h1, ← cell_of h1]
    exact hdist a b hab hb
  obtain ⟨t, p, e, hbij, hlen, hact, hinfo, -, hrows⟩ := Table.C17_join_partial wl wr h5 hnd hside (by
    rw [h6] at hnames
    simpa [List.map_map, Function.comp_def] using hnames)
  refine ⟨t, ?_, ?_, ?_⟩
  · unfold plainJoin
    rw [h1, ok_bind, h2, ok_bind, h3, ok_bind, hsel]
    exact e
  · rw [hinfo, h6, List.map_map, List.map_map]; rfl
  · -- the flag and the row of position `d` in terms of the right row `p[d]`
    have hkey : ∀ b, ((List.range (numRows mem l.tbl)).find? fun a => cell mem l a == cell mem r b) =
        (List.range (numRows mem l.tbl)).find? fun a => q.leftKey.data.rows[a]? == q.rightKey.data.rows[b]? := by
      intro b
      congr 1
      funext a
      rw [cell_of h1, cell_of h2]
    let f : Nat → Option (List (Option Row)) := fun b =>
      ((List.range (numRows mem l.tbl)).find? fun a => cell mem l a == cell mem r b).map fun a =>
        (xs.map (·.1)).map fun c => cell mem c (if c.tbl = r.tbl then b else a)
    have hright : ((pairs mem l r).map fun p => (xs.map (·.1)).map fun c => cell mem c (if c.tbl = r.tbl then p.2 else p.1)) =
        (List.range (numRows mem r.tbl)).filterMap f := by
      unfold pairs
      rw [List.map_filterMap]
      apply List.filterMap_congr
      intro b _
      show Option.map _ (Option.map _ _) = Option.map _ _
      rw [Option.map_map]
      rfl
    have hleft : activeRows t = p.filterMap f := by
      have hp : p = (List.range p.length).map fun d => p.getD d 0 := by
        apply List.ext_getElem
        · simp
        · intro i h _; simp [h]
      have : p.filterMap f = (List.range p.length).filterMap fun d => f (p.getD d 0) := by
        conv_lhs => rw [hp]
        rw [List.filterMap_map]; rfl
      rw [this]
      unfold activeRows
      rw [hact, ← hlen, ← List.filterMap_eq_filter, List.map_filterMap]
      apply List.filterMap_congr
      intro d hd
      have hd := List.mem_range.mp hd
      obtain ⟨r1, r2⟩ := hrows d hd
      have hg : p.getD d 0 = p[d] := by simp [hd]
      have hlt : p[d] < numRows mem r.tbl := by
        rw [← hlen]; exact ((isBijection_iff _).mp hbij).1 _ (List.getElem_mem hd)
      rw [hg]
      show _ = Option.map _ _
      rw [hkey]
      cases hf : (List.range (numRows mem l.tbl)).find? fun a => q.leftKey.data.rows[a]? == q.rightKey.data.rows[p[d]]? with
      | none =>
        have hno := List.find?_eq_none.mp hf
        obtain ⟨a1, -⟩ := r2 (fun a ha h => hno a (List.mem_range.mpr ha) (by rw [h]; simp))
        have : t.isActive.getD d 0 = 0 := by rw [List.getD_eq_getElem?_getD, a1]; rfl
        rw [Option.guard, this]; rfl
      | some a =>
        have ha := List.mem_range.mp (List.mem_of_find?_eq_some hf)
        have hk := List.find?_some hf
        obtain ⟨a1, a2⟩ := r1 a ha (by simpa using hk)
        have h1' : t.isActive.getD d 0 = 1 := by rw [List.getD_eq_getElem?_getD, a1]; rfl
        rw [Option.guard, h1']
        simp only [Option.map_some, beq_self_eq_true, if_true]
        rw [a2]
        simp only [Table.pairCells, List.map_map]
        congr 1
        apply List.map_congr_left
        intro x hxm
        simp only [Function.comp]
        rw [cell_of (hx x hxm)]
        unfold sideOf
        by_cases hr : x.1.tbl = r.tbl
        · simp [hr]
        · by_cases hl : x.1.tbl = l.tbl <;> simp [hr, hl]
    rw [hright, hleft]
    have hpp := isPermList_iff_perm.mp ((isBijection_iff _).mp hbij)
    rw [hlen] at hpp
    exact hpp.filterMap f

/-- **C79.** For two tables the revealed join of shares and the active rows of the plaintext join are the same rows. What is
missing: joins of a table object with itself (`C79_self_false`), duplicate left keys (`C79_duplicates`), and key widths that are no power of two. -/
theorem C79_join_partial {mem : List Table} {l r : ColRef} {sel : List ColRef} {q : Query} (hm : ∀ t ∈ mem, t.WF t.rows ∧ t.Clean t.rows)
    (hq : mkQuery mem l r sel = .ok q) (htwo : l.tbl ≠ r.tbl) (hne : sel ≠ []) (hnames : (q.select.map (·.2.info.name)).Nodup)
    (hdist : ∀ a b, a < b → b < numRows mem l.tbl → cell mem l a ≠ cell mem l b)
    (hnL : 0 < numRows mem l.tbl) (hnR : 0 < numRows mem r.tbl) (hn32 : numRows mem l.tbl + numRows mem r.tbl ≤ 2 ^ 32)
    {L cs k W V : Nat} (h1 : 1 ≤ L) (h8 : L ≤ 8) (hk : q.leftKey.info.bits = 2 ^ k) (hcs : 2 ^ k ≤ cs) {enc : Row → Row}
    {G : GmwEnv} (hG : G.Ok (numRows mem l.tbl + numRows mem r.tbl) (2 ^ k) L (dataBytes q.select (2 ^ k))) {p0 p1 e0 e1 : ComposedPerm}
    (hW : W = 16 * ((permBytes (8 * dataBytes q.select (2 ^ k)) (2 ^ k) + 15) / 16))
    (hp : ValidComposed (numRows mem l.tbl + numRows mem r.tbl) W 0 W 0 p0 p1)
    (hV : V = Extract.budget (removeBytes q.select)) (hv : ValidComposed (numRows mem r.tbl) V 0 V 0 e0 e1)
    (rnd : Nat → Nat → Nat → Nat → Byte) (rndF : Nat → Nat → Byte) :
    ∃ t s u, plainJoin mem l r sel = .ok t ∧ sharedJoin rnd rndF L cs enc p0 p1 G mem l r sel = .ok s ∧
      sharedJoinActive rnd rndF L cs enc p0 p1 e0 e1 G mem l r sel = .ok u ∧
      s.getColumnInfo = t.getColumnInfo ∧ u.getColumnInfo = t.getColumnInfo ∧
      (tableRows s).Perm (activeRows t) ∧ (tableRows u).Perm (activeRows t) := by
  obtain ⟨t, a1, a2, a3⟩ := C79_plain hm hq hnames hdist
  obtain ⟨s, b1, b2, b3⟩ := C79_shared hm hq hne hnames hnL hnR hn32 h1 h8 hk hcs (enc := enc) hG hW hp rnd rndF
  obtain ⟨u, c1, c2, c3⟩ := C79_removed hm hq hne hnames hnL hnR hn32 h1 h8 hk hcs (enc := enc) hG hW hp hV hv rnd rndF
  obtain ⟨cols, -, -, -, h4, -, -⟩ := mkQuery_inv hq
  have heq : ((pairs mem l r).map fun p => sel.map fun c => cell mem c (if c.tbl = l.tbl then p.1 else p.2)) =
      (pairs mem l r).map fun p => sel.map fun c => cell mem c (if c.tbl = r.tbl then p.2 else p.1) := by
    apply List.map_congr_left
    intro p _
    apply List.map_congr_left
    intro c hc
    rcases h4 c hc with h | h
    · rw [if_pos h, if_neg (by rw [h]; exact htwo)]
    · rw [if_pos h, if_neg (by rw [h]; exact fun h => htwo h.symm)]
  refine ⟨t, s, u, a1, b1, c1, by rw [a2, b2], by rw [a2, c2], ?_, ?_⟩
  · rw [b3, heq]; exact a3.symm
  · rw [heq] at c3; exact c3.trans a3.symm

/-- A column of a third table, or keys of different widths, are refused by both joins. -/
theorem C79_refused {mem : List Table} {l r : ColRef} {sel : List ColRef} {lk rk : Column} {cols : List Column}
    (hm : ∀ t ∈ mem, t.WF t.rows ∧ t.Clean t.rows) (hl : l.get mem = .ok lk) (hr : r.get mem = .ok rk)
    (hc : mapRes (·.get mem) sel = .ok cols) (hbad : lk.info.bits ≠ rk.info.bits ∨ ∃ c ∈ sel, c.tbl ≠ l.tbl ∧ c.tbl ≠ r.tbl) :
    mkQuery mem l r sel = .error .throw ∧ plainJoin mem l r sel = .error .throw := by
  constructor
  · unfold mkQuery
    rw [hl, ok_bind, hr, ok_bind, hc, ok_bind]
    cases hb : (sel.any fun c => c.tbl != l.tbl && c.tbl != r.tbl) with
    | true => rfl
    | false =>
      rcases hbad with h | ⟨c, h1, h2, h3⟩
      · have : (lk.info.bits != rk.info.bits) = true := by simpa using h
        rw [throwIf_false, ok_bind, this]; rfl
      · have := List.any_eq_false.mp hb c h1
        simp [h2, h3] at this
  · unfold plainJoin
    rw [hl, ok_bind, hr, ok_bind, hc, ok_bind]
    unfold Table.join
    cases hb : lk.info.bits != rk.info.bits with
    | true => rfl
    | false =>
      have hb : lk.info.bits = rk.info.bits := by simpa using hb
      obtain ⟨c, h1, h2, h3⟩ := hbad.resolve_left (fun h => h hb)
      obtain ⟨xs, rfl, rfl, hx⟩ := sel_pairs hc
      have hany : ((List.zipWith (fun (c : ColRef) (x : Column) => (if c.tbl = r.tbl then Table.Side.right else if c.tbl = l.tbl then .left else .other, x))
          (xs.map (·.1)) (xs.map (·.2))).any fun s => s.1 == .other) = true := by
        rw [List.zipWith_map, List.zipWith_self, List.any_eq_true]
        obtain ⟨x, hxm, rfl⟩ := List.mem_map.mp h1
        exact ⟨_, List.mem_map.mpr ⟨x, hxm, rfl⟩, by simp [h2, h3]⟩
      obtain ⟨wl, -⟩ := get_wf hm hl
      obtain ⟨wr, -⟩ := get_wf hm hr
      have hL := Table.Sorted.of_plainSort wl.shape
      have hR : Table.Sorted rk.data.rows (plainSort rk.data.rows) (numRows mem r.tbl) (divCeil lk.info.bits 8) := by
        rw [hb]; exact Table.Sorted.of_plainSort wr.shape
      rw [throwIf_false, ok_bind]
      rcases Table.mergeLoop_spec hL hR (numRows mem r.tbl) 0 0 (by omega) (by omega) (fun p hp => by omega) (fun p _ hp => by omega) with ⟨e, -⟩ | ⟨I, e, -⟩
      · simp only []
        rw [wr.shape.1, e]; rfl
      · simp only []
        rw [wr.shape.1, e, ok_bind, hany]; rfl

/-- Duplicate left keys: the plaintext join refuses them if some right key is larger, while the shared join takes the first of them
(`C79_shared` and `C79_removed` ask nothing of the left keys). -/
theorem C79_duplicates {mem : List Table} {l r : ColRef} {sel : List ColRef} {q : Query} (hm : ∀ t ∈ mem, t.WF t.rows ∧ t.Clean t.rows)
    (hq : mkQuery mem l r sel = .ok q) {a b j : Nat} (hab : a < b) (hb : b < numRows mem l.tbl) (hdup : cell mem l a = cell mem l b)
    (hj : j < numRows mem r.tbl) (hlt : leValue ((cell mem l a).getD []) < leValue ((cell mem r j).getD [])) :
    plainJoin mem l r sel = .error .throw := by
  obtain ⟨cols, h1, h2, h3, h4, h5, h6⟩ := mkQuery_inv hq
  obtain ⟨wl, -⟩ := get_wf hm h1
  obtain ⟨wr, -⟩ := get_wf hm h2
  unfold plainJoin
  rw [h1, ok_bind, h2, ok_bind, h3, ok_bind]
  rw [cell_getD h1 wl (by omega), cell_getD h1 wl hb] at hdup
  rw [cell_getD h1 wl (by omega), cell_getD h2 wr hj] at hlt
  exact Table.C17_duplicates_refused_partial wl wr h5 (show a < _ by omega) hb (by omega) (Option.some.inj hdup) hj hlt

/-! ## The hypotheses can be met -/

/-- For every number of rows and key width there are circuits and preprocessing. -/
theorem anyGmw {n bits L w : Nat} (hn : 2 ≤ n) (hb : 0 < bits) (hw : 0 < w) (h1 : 1 ≤ L) : ∃ G : GmwEnv, G.Ok n bits L w := by
  have hH := Radix.hotCir_exists (L := L) h1
  have hA := Radix.addCir_exists (w := Radix.sumBits n) (by unfold Radix.sumBits; omega)
  generalize (⟨(Radix.hotCircuit L).wireCount, (Radix.hotCircuit L).inputs, (Radix.hotCircuit L).outputs, (Radix.hotCircuit L).gates.map fun g => [g]⟩ : Cir) = hot at hH
  generalize (⟨(Radix.addCircuit (Radix.sumBits n)).wireCount, (Radix.addCircuit (Radix.sumBits n)).inputs, (Radix.addCircuit (Radix.sumBits n)).outputs,
    (Radix.addCircuit (Radix.sumBits n)).gates.map fun g => [g]⟩ : Cir) = add at hA
  obtain ⟨a0, a1, ha⟩ := Gmw.Wires.env_exists n hot (fun _ _ => 7) (fun _ _ => 9) (fun _ _ => true) (fun _ _ => false)
  obtain ⟨b0, b1, hb'⟩ := Gmw.Wires.env_exists n add (fun _ _ => 1) (fun _ _ => 2) (fun _ _ => true) (fun _ _ => true)
  have hok := GroupBy.anyRound_ok n L
  let e : Radix.RoundEnv := ⟨⟨fun _ _ => 7, fun _ _ => 9, fun _ _ => true, fun _ _ => false, a0, a1⟩, (GroupBy.anyRound n L).inj, (GroupBy.anyRound n L).otA,
    (GroupBy.anyRound n L).otB, ⟨fun _ _ => 1, fun _ _ => 2, fun _ _ => true, fun _ _ => true, b0, b1⟩⟩
  have he : e.Ok hot add n L := ⟨hok.inj, hok.otA, hok.otB, hok.rowsA, hok.rowsB, fun _ => ha, hb'⟩
  obtain ⟨d0, d1, hd⟩ := GroupBy.anyComposed n 16
  obtain ⟨G, hG, -⟩ := OmJoin.gmwEnv_exists (n := n) (bits := bits) (L := L) (w := w) (rest := List.replicate (divCeil bits L) (d0, d1, e)) hn hb hw
    (fun _ => hH) hA he (fun s hs => by
      rw [(List.mem_replicate.mp hs).2]
      exact ⟨_, _, _, _, hd, by decide, by decide, he⟩) (by simp) (fun _ _ => 5) (fun _ _ => true) (fun _ _ _ => true)
  exact ⟨G, hG⟩

/-- Tables of whole bytes are well formed if the sizes agree. -/
theorem wf_of_bytes {t : Table} {n : Nat} (hc : ∀ c ∈ t.cols, c.data.bits = c.info.bits ∧ c.data.cols = divCeil c.info.bits 8 ∧
      8 * divCeil c.info.bits 8 = c.info.bits ∧ c.data.rows.length = n ∧ ∀ x ∈ c.data.rows, x.length = divCeil c.info.bits 8)
    (hn : (t.cols.map (·.info.name)).Nodup) (h0 : t.cols ≠ []) (ha : t.isActive = []) (hr : t.rows = n) : t.WF t.rows ∧ t.Clean t.rows := by
  rw [hr]
  refine ⟨⟨fun c h => ?_, hn, fun h => absurd h h0, Or.inl ha⟩, fun c h i hi k hk => ?_⟩
  · obtain ⟨a1, a2, a3, a4, a5⟩ := hc c h
    exact ⟨a1, a2, ⟨a4, a5⟩, fun _ => by omega⟩
  · obtain ⟨a1, a2, a3, a4, a5⟩ := hc c h
    apply bitOf_ge
    have hi' : i < c.data.rows.length := by rw [a4]; exact hi
    rw [List.getD_eq_getElem?_getD, List.getElem?_eq_getElem hi', Option.getD_some, a5 _ (List.getElem_mem hi'), a3]
    exact hk

/-- A table of employees (number, name) and one of payments (number, amount). -/
def exMem : List Table :=
  [⟨[], [⟨⟨[105], .int, 8⟩, ⟨8, 1, [[6], [1], [9]]⟩⟩, ⟨⟨[110], .int, 16⟩, ⟨16, 2, [[65, 66], [67, 68], [69, 70]]⟩⟩]⟩,
   ⟨[], [⟨⟨[107], .int, 8⟩, ⟨8, 1, [[9], [6], [3], [6]]⟩⟩, ⟨⟨[97], .int, 8⟩, ⟨8, 1, [[100], [7], [5], [8]]⟩⟩]⟩]

/-- The joined rows of the example, in the order of the payments. -/
example : ((pairs exMem ⟨0, 0⟩ ⟨1, 0⟩).map fun p => [⟨0, 1⟩, ⟨1, 1⟩, ⟨0, 0⟩].map fun c => cell exMem c (if c.tbl = 0 then p.1 else p.2)) =
    [[some [69, 70], some [100], some [9]], [some [65, 66], some [7], some [6]], [some [65, 66], some [8], some [6]]] := by decide

example (rnd : Nat → Nat → Nat → Nat → Byte) (rndF : Nat → Nat → Byte) : ∃ (p0 p1 e0 e1 : ComposedPerm) (G : GmwEnv) (t s u : Table),
    plainJoin exMem ⟨0, 0⟩ ⟨1, 0⟩ [⟨0, 1⟩, ⟨1, 1⟩, ⟨0, 0⟩] = .ok t ∧
    sharedJoin rnd rndF 2 48 id p0 p1 G exMem ⟨0, 0⟩ ⟨1, 0⟩ [⟨0, 1⟩, ⟨1, 1⟩, ⟨0, 0⟩] = .ok s ∧
    sharedJoinActive rnd rndF 2 48 id p0 p1 e0 e1 G exMem ⟨0, 0⟩ ⟨1, 0⟩ [⟨0, 1⟩, ⟨1, 1⟩, ⟨0, 0⟩] = .ok u ∧
    (tableRows s).Perm (activeRows t) ∧ (tableRows u).Perm (activeRows t) := by
  have hm : ∀ t ∈ exMem, t.WF t.rows ∧ t.Clean t.rows := by
    intro t ht
    rcases List.mem_cons.mp ht with rfl | ht
    · exact wf_of_bytes (n := 3) (by decide) (by decide) (by decide) rfl rfl
    · rw [List.mem_singleton] at ht
      subst ht
      exact wf_of_bytes (n := 4) (by decide) (by decide) (by decide) rfl rfl
  obtain ⟨q, hq, hq'⟩ : ∃ q, mkQuery exMem ⟨0, 0⟩ ⟨1, 0⟩ [⟨0, 1⟩, ⟨1, 1⟩, ⟨0, 0⟩] = .ok q ∧
      q = ⟨⟨⟨[105], .int, 8⟩, ⟨8, 1, [[6], [1], [9]]⟩⟩, ⟨⟨[107], .int, 8⟩, ⟨8, 1, [[9], [6], [3], [6]]⟩⟩,
        [(true, ⟨⟨[110], .int, 16⟩, ⟨16, 2, [[65, 66], [67, 68], [69, 70]]⟩⟩), (false, ⟨⟨[97], .int, 8⟩, ⟨8, 1, [[100], [7], [5], [8]]⟩⟩),
         (true, ⟨⟨[105], .int, 8⟩, ⟨8, 1, [[6], [1], [9]]⟩⟩)]⟩ := ⟨_, rfl, rfl⟩
  obtain ⟨p0, p1, hp⟩ := GroupBy.anyComposed 7 (permBytes (8 * dataBytes q.select (2 ^ 3)) (2 ^ 3))
  obtain ⟨e0, e1, he⟩ := GroupBy.anyComposed 4 (removeBytes q.select)
  obtain ⟨G, hG⟩ := anyGmw (n := 7) (bits := 2 ^ 3) (L := 2) (w := dataBytes q.select (2 ^ 3)) (by omega) (by decide) (by subst hq'; decide) (by omega)
  obtain ⟨t, s, u, h1, h2, h3, -, -, h4, h5⟩ := C79_join_partial (k := 3) (cs := 48) (L := 2) (enc := id) hm hq (by decide) (by decide) (by subst hq'; decide)
    (by
      intro a b hab hb
      have hb : b < 3 := hb
      have : ∀ b < 3, ∀ a < b, cell exMem ⟨0, 0⟩ a ≠ cell exMem ⟨0, 0⟩ b := by decide
      exact this b hb a hab)
    (by decide) (by decide) (by decide) (by omega) (by omega) (by subst hq'; rfl) (by decide) hG rfl hp rfl he rnd rndF
  exact ⟨p0, p1, e0, e1, G, t, s, u, h1, h2, h3, h4, h5⟩

/-! ## Joining a table with itself -/

/-- Employees with their number, their manager's number and their name. -/
def staff : Table := ⟨[], [⟨⟨[105], .int, 8⟩, ⟨8, 1, [[6], [1], [9]]⟩⟩, ⟨⟨[109], .int, 8⟩, ⟨8, 1, [[1], [1], [6]]⟩⟩, ⟨⟨[110], .int, 8⟩, ⟨8, 1, [[65], [66], [67]]⟩⟩]⟩

/-- **C79 is false for a table joined with itself** (the same table object for both keys): the shared join takes every selected column from
the left row (OmJoin.cpp 192, 249), the plaintext join from the right row (Table.cpp 797). Asked for the names of employees with a manager,
the first gives the names of the managers and the second those of the employees. -/
theorem C79_self_false (rnd : Nat → Nat → Nat → Nat → Byte) (rndF : Nat → Nat → Byte) : ∃ (p0 p1 : ComposedPerm) (G : GmwEnv) (t s : Table),
    plainJoin [staff] ⟨0, 0⟩ ⟨0, 1⟩ [⟨0, 2⟩] = .ok t ∧ sharedJoin rnd rndF 2 48 id p0 p1 G [staff] ⟨0, 0⟩ ⟨0, 1⟩ [⟨0, 2⟩] = .ok s ∧
    tableRows s = [[some [66]], [some [66]], [some [65]]] ∧ (activeRows t).Perm [[some [65]], [some [66]], [some [67]]] ∧
    ¬ (tableRows s).Perm (activeRows t) := by
  have hm : ∀ t ∈ [staff], t.WF t.rows ∧ t.Clean t.rows := by
    intro t ht
    rw [List.mem_singleton] at ht
    subst ht
    exact wf_of_bytes (n := 3) (by decide) (by decide) (by decide) rfl rfl
  obtain ⟨q, hq, hq'⟩ : ∃ q, mkQuery [staff] ⟨0, 0⟩ ⟨0, 1⟩ [⟨0, 2⟩] = .ok q ∧
      q = ⟨⟨⟨[105], .int, 8⟩, ⟨8, 1, [[6], [1], [9]]⟩⟩, ⟨⟨[109], .int, 8⟩, ⟨8, 1, [[1], [1], [6]]⟩⟩,
        [(true, ⟨⟨[110], .int, 8⟩, ⟨8, 1, [[65], [66], [67]]⟩⟩)]⟩ := ⟨_, rfl, rfl⟩
  obtain ⟨p0, p1, hp⟩ := GroupBy.anyComposed 6 (permBytes (8 * dataBytes q.select (2 ^ 3)) (2 ^ 3))
  obtain ⟨G, hG⟩ := anyGmw (n := 6) (bits := 2 ^ 3) (L := 2) (w := dataBytes q.select (2 ^ 3)) (by omega) (by decide) (by subst hq'; decide) (by omega)
  obtain ⟨t, a1, -, a3⟩ := C79_plain hm hq (by subst hq'; decide) (by
    intro a b hab hb
    have hb : b < 3 := hb
    have : ∀ b < 3, ∀ a < b, cell [staff] ⟨0, 0⟩ a ≠ cell [staff] ⟨0, 0⟩ b := by decide
    exact this b hb a hab)
  obtain ⟨s, b1, -, b3⟩ := C79_shared (k := 3) (cs := 48) (L := 2) (enc := id) hm hq (by decide) (by subst hq'; decide) (by decide) (by decide) (by decide)
    (by omega) (by omega) (by subst hq'; rfl) (by decide) hG rfl hp rnd rndF
  have e1 : tableRows s = [[some [66]], [some [66]], [some [65]]] := by rw [b3]; decide
  have e2 : (activeRows t).Perm [[some [65]], [some [66]], [some [67]]] := a3
  refine ⟨p0, p1, G, t, s, a1, b1, e1, e2, fun h => ?_⟩
  rw [e1] at h
  exact absurd (h.trans e2) (by decide)

end EndToEnd
end SecJoin
