import Verif.TableOps.ChainOps
/-!
# Programs on shared tables: properties (C82)
-/
namespace SecJoin
namespace Chain
open EndToEnd (ColRef mkQuery shareMem numRows cell tableRows get_ok)
open GroupEnd (mkInp)

/-- What a program asks of the plaintext tables: every operation what it asks of the tables it finds, whichever tables with the effects of the earlier
operations these are. -/
def Safe : List Op → List Table → Prop
  | [], _ => True
  | o :: os, mem => Pre mem o ∧ ∀ u, Good u → Effect mem u o → Safe os (mem ++ [u])

theorem shareMem_len {rnd : Nat → Nat → Nat → Nat → Byte} {rndF : Nat → Nat → Byte} : ∀ {i : Nat} {mem m0 m1 : List Table},
    shareMem rnd rndF i mem = .ok (m0, m1) → m0.length = mem.length ∧ m1.length = mem.length
  | _, [], _, _, h => by
    simp only [shareMem] at h
    injection h with h
    injection h with h0 h1
    subst h0 h1
    exact ⟨rfl, rfl⟩
  | i, t :: ts, m0, m1, h => by
    simp only [shareMem] at h
    obtain ⟨⟨a, b⟩, -, h⟩ := OmJoin.bind_inv h
    obtain ⟨⟨as, bs⟩, h2, h⟩ := OmJoin.bind_inv h
    injection h with h
    injection h with h0 h1
    subst h0 h1
    obtain ⟨c0, c1⟩ := shareMem_len h2
    exact ⟨by simp [c0], by simp [c1]⟩

theorem shareMem_shared {mem : List Table} (hg : ∀ t ∈ mem, Good t) (rnd : Nat → Nat → Nat → Nat → Byte) (rndF : Nat → Nat → Byte) :
    ∃ m0 m1, shareMem rnd rndF 0 mem = .ok (m0, m1) ∧ SharedMem m0 m1 mem := by
  obtain ⟨m0, m1, e, h⟩ := EndToEnd.shareMem_tables (rnd := rnd) (rndF := rndF) 0 mem fun t ht => ⟨(hg t ht).wf, (hg t ht).clean⟩
  obtain ⟨l0, l1⟩ := shareMem_len e
  refine ⟨m0, m1, e, l0, l1, fun k t hk => ?_⟩
  obtain ⟨s0, s1, a0, a1, b1, b2, b3, b4, b5, b6, b7, b8⟩ := h k t hk
  exact ⟨s0, s1, a0, a1, b1, b2, b3, b4, b5, b6, b7, b8⟩

/-- **C82, programs whose joins read tables without inactive rows and whose group-bys read tables with flags.** From shares of well-formed tables the
program finishes with shares of well-formed tables, and every operation has its effect. Missing for the full claim: joins of tables with inactive rows
and group-bys of tables without flags, for which it is false (`C82_filter_join_false`, `C82_remove_group_false`), keys of other widths, and filters on
some of the columns only (`WhereT.C36_columns_false`). -/
theorem C82_chain_partial : ∀ {os : List Op} {m0 m1 mem : List Table}, (∀ t ∈ mem, Good t) → SharedMem m0 m1 mem → Safe os mem →
    ∃ m0' m1' mem', run os m0 m1 = .ok (m0', m1') ∧ SharedMem m0' m1' mem' ∧ (∀ t ∈ mem', Good t) ∧ Effects os mem mem'
  | [], m0, m1, mem, hg, hm, _ => ⟨m0, m1, mem, rfl, hm, hg, .nil mem⟩
  | o :: os, m0, m1, mem, hg, hm, hs => by
    obtain ⟨u0, u1, u, e, h, hu, he⟩ := op_ok hg hm hs.1
    obtain ⟨m0', m1', mem', e', h1, h2, h3⟩ := C82_chain_partial (os := os) (fun t ht => by
      rcases List.mem_append.mp ht with h | h
      · exact hg t h
      · rw [List.mem_singleton.mp h]; exact hu) (hm.push h) (hs.2 u hu he)
    refine ⟨m0', m1', mem', ?_, h1, h2, .cons he h3⟩
    simp only [run]
    rw [e, ok_bind]
    exact e'

theorem Effects.grows {os : List Op} {mem mem' : List Table} (h : Effects os mem mem') : ∃ us, us.length = os.length ∧ mem' = mem ++ us := by
  induction h with
  | nil => exact ⟨[], rfl, by simp⟩
  | @cons o os mem mem' u _ _ ih =>
    obtain ⟨us, hl, e⟩ := ih
    exact ⟨u :: us, by simp [hl], by rw [e]; simp⟩

/-- **C82, revealed.** The same with the tables shared first and one table revealed at the end: what is shown are the columns and the active rows of a
table that the operations give on the plaintext. -/
theorem C82_program_partial {os : List Op} {mem : List Table} (hg : ∀ t ∈ mem, Good t) (hs : Safe os mem) {k : Nat} (hk : k < mem.length + os.length)
    (rnd : Nat → Nat → Nat → Nat → Byte) (rndF : Nat → Nat → Byte) :
    ∃ mem' t s, Effects os mem mem' ∧ mem'[k]? = some t ∧ program rnd rndF os k mem = .ok s ∧ s.getColumnInfo = t.getColumnInfo ∧ tableRows s = content t := by
  obtain ⟨m0, m1, e, hm⟩ := shareMem_shared hg rnd rndF
  obtain ⟨m0', m1', mem', e', h1, h2, h3⟩ := C82_chain_partial hg hm hs
  obtain ⟨us, hl, hmem⟩ := h3.grows
  have hk' : k < mem'.length := by rw [hmem, List.length_append, hl]; exact hk
  obtain ⟨t0, t1, a0, a1, st⟩ := h1.tab k _ (List.getElem?_eq_getElem hk')
  obtain ⟨s, es, hi, hr⟩ := reveal_content st (h2 _ (List.getElem_mem hk')).bits
  refine ⟨mem', _, s, h3, List.getElem?_eq_getElem hk', ?_, hi, hr⟩
  unfold program
  rw [e, ok_bind]
  simp only []
  rw [e', ok_bind]
  simp only []
  rw [Gmw.rd_ok_iff.mpr a0, ok_bind, Gmw.rd_ok_iff.mpr a1, ok_bind]
  exact es

/-! ## A query: filter, remove, join -/

theorem cell_rowAt {mem : List Table} {t : Table} {c : ColRef} (h : mem[c.tbl]? = some t) (b : Nat) : cell mem c b = ((t.rowAt b)[c.col]?).join := by
  unfold cell Table.rowAt
  rw [h, List.getElem?_map]
  simp only [Option.bind_eq_bind, Option.bind_some]
  cases t.cols[c.col]? <;> rfl

theorem cell_left {mem us : List Table} {c : ColRef} (h : c.tbl < mem.length) (b : Nat) : cell (mem ++ us) c b = cell mem c b := by
  unfold cell
  rw [List.getElem?_append_left h]

/-- **C82, the rows of one table that satisfy a predicate, joined with another table.** With the inactive rows removed between the filter and the join,
the revealed rows are those of the query on the plaintext: for every active row of table `i` that satisfies the predicate and has a partner in the
left table, the selected cells of both. -/
theorem C82_query_partial {mem : List Table} (hg : ∀ t ∈ mem, Good t) {i rc : Nat} {ks : List Nat} {c : Gmw.Circuit} {junk : Nat}
    {levels : List (List Gmw.Gate)} {E : Gmw.Wires.Env} {d0 d1 p0 p1 : ComposedPerm} {l : ColRef} {sel : List ColRef} {L cs : Nat} {enc : Row → Row}
    {G : OmJoin.GmwEnv} {t tl : Table} (ht : mem[i]? = some t) (hl : mem[l.tbl]? = some tl) (hsel : ∀ x ∈ sel, x.tbl = l.tbl ∨ x.tbl = i)
    (hs : Safe [.filter i ks c junk levels E, .remove mem.length d0 d1,
      .join l ⟨mem.length + 1, rc⟩ (sel.map fun x => if x.tbl = l.tbl then x else ⟨mem.length + 1, x.col⟩) L cs enc p0 p1 G] mem)
    (rnd : Nat → Nat → Nat → Nat → Byte) (rndF : Nat → Nat → Byte) :
    ∃ s, program rnd rndF [.filter i ks c junk levels E, .remove mem.length d0 d1,
        .join l ⟨mem.length + 1, rc⟩ (sel.map fun x => if x.tbl = l.tbl then x else ⟨mem.length + 1, x.col⟩) L cs enc p0 p1 G] (mem.length + 2) mem = .ok s ∧
      (tableRows s).Perm (((live t).filter (sat c t)).filterMap fun b => ((live tl).find? fun a => cell mem l a == cell mem ⟨i, rc⟩ b).map fun a =>
        sel.map fun x => cell mem x (if x.tbl = l.tbl then a else b)) := by
  obtain ⟨mem', w, s, he, hw, hp, -, hr⟩ := C82_program_partial hg hs (k := mem.length + 2) (by simp) rnd rndF
  refine ⟨s, hp, ?_⟩
  rw [hr]
  have hll : l.tbl < mem.length := (List.getElem?_eq_some_iff.mp hl).1
  cases he with
  | @cons _ _ _ _ u1 e1 he =>
  cases he with
  | @cons _ _ _ _ u2 e2 he =>
  cases he with
  | @cons _ _ _ _ u3 e3 he =>
  cases he
  have hw' : w = u3 := by simpa using hw.symm
  subst hw'
  obtain ⟨t', b1, b2, -, b4⟩ := e1
  rw [ht] at b1
  injection b1 with b1
  subst b1
  obtain ⟨v, c1, -, -, c4⟩ := e2
  have hv : v = u1 := by simpa using c1.symm
  subst hv
  obtain ⟨tl', tr, d1, d2, -, -, -, d6⟩ := e3
  rw [List.append_assoc, List.getElem?_append_left hll, hl] at d1
  injection d1 with d1
  subst d1
  have htr : tr = u2 := by simpa using d2.symm
  subst htr
  have hu2 : ((mem ++ [v]) ++ [tr])[mem.length + 1]? = some tr := by simp
  let F : List (Option Row) → Option (List (Option Row)) := fun row => ((live tl).find? fun a => cell mem l a == (row[rc]?).join).map fun a =>
    sel.map fun x => if x.tbl = l.tbl then cell mem x a else (row[x.col]?).join
  have e3 : content w = (content tr).filterMap F := by
    rw [d6]
    unfold content livePairs
    rw [List.map_filterMap, List.filterMap_map]
    congr 1
    funext b
    simp only [Function.comp, Option.map_map, F]
    rw [cell_rowAt (c := ⟨mem.length + 1, rc⟩) hu2 b]
    simp only [List.append_assoc, cell_left hll, List.map_map]
    congr 1
    funext a
    apply List.map_congr_left
    intro x hx
    simp only [Function.comp]
    by_cases h : x.tbl = l.tbl
    · rw [if_pos h, if_pos h, if_pos h, cell_left (by rw [h]; exact hll)]
    · rw [if_neg h, if_neg h, if_neg (by show ¬ mem.length + 1 = l.tbl; omega), ← List.append_assoc]
      exact cell_rowAt (c := ⟨mem.length + 1, x.col⟩) hu2 b
  have e1 : content v = ((live t).filter (sat c t)).map t.rowAt := by
    unfold content
    rw [b4]
    apply List.map_congr_left
    intro r _
    unfold Table.rowAt
    rw [b2]
  rw [e3]
  refine (c4.filterMap F).trans ?_
  rw [e1, List.filterMap_map]
  apply List.Perm.of_eq
  congr 1
  funext b
  simp only [Function.comp, F]
  rw [cell_rowAt (c := ⟨i, rc⟩) ht b]
  congr 1
  funext a
  apply List.map_congr_left
  intro x hx
  by_cases h : x.tbl = l.tbl
  · rw [if_pos h, if_pos h]
  · have hxi : x.tbl = i := (hsel x hx).resolve_left h
    rw [if_neg h, if_neg h]
    exact (cell_rowAt (by rw [hxi]; exact ht) b).symm

/-! ## What the operations do to rows that are switched off, and to tables without flags -/

/-- The join pairs all rows of the tables it reads, active or not: nothing of their flags enters the result. -/
theorem C82_join_flags {m0 m1 mem : List Table} (hg : ∀ t ∈ mem, Good t) (hm : SharedMem m0 m1 mem) {l r : ColRef} {sel : List ColRef} {q : OmJoin.Query}
    (hq : mkQuery mem l r sel = .ok q) (hne : sel ≠ []) (hnames : (q.select.map (·.2.info.name)).Nodup)
    (hnL : 0 < numRows mem l.tbl) (hnR : 0 < numRows mem r.tbl) (hn32 : numRows mem l.tbl + numRows mem r.tbl ≤ 2 ^ 32)
    {L cs k W : Nat} (h1 : 1 ≤ L) (h8 : L ≤ 8) (hk : q.leftKey.info.bits = 2 ^ k) (hcs : 2 ^ k ≤ cs) {enc : Row → Row}
    {G : OmJoin.GmwEnv} (hG : G.Ok (numRows mem l.tbl + numRows mem r.tbl) (2 ^ k) L (OmJoin.dataBytes q.select (2 ^ k))) {p0 p1 : ComposedPerm}
    (hW : W = 16 * ((OmJoin.permBytes (8 * OmJoin.dataBytes q.select (2 ^ k)) (2 ^ k) + 15) / 16))
    (hp : ValidComposed (numRows mem l.tbl + numRows mem r.tbl) W 0 W 0 p0 p1) :
    ∃ u0 u1 s, (Op.join l r sel L cs enc p0 p1 G).run m0 m1 = .ok (u0, u1) ∧ Table.reveal u0 u1 true = .ok s ∧
      tableRows s = (EndToEnd.pairs mem l r).map fun p => sel.map fun c => cell mem c (if c.tbl = l.tbl then p.1 else p.2) := by
  obtain ⟨u0, u1, u, e, hs, hu, -, -, -, hc⟩ := join_all (enc := enc) hg hm hq hne hnames hnL hnR hn32 h1 h8 hk hcs hG hW hp
  obtain ⟨s, es, -, hr⟩ := reveal_content hs hu.bits
  exact ⟨u0, u1, s, e, es, by rw [hr, hc]⟩

/-- A group-by of a table without flags is undefined. -/
theorem group_ub {m0 m1 mem : List Table} (hg : ∀ t ∈ mem, Good t) (hm : SharedMem m0 m1 mem) {g : ColRef} {avg : List ColRef} {i : GroupBy.Inp}
    (hi : mkInp mem g avg = .ok i) (hact : i.act = []) (hn : 0 < numRows mem g.tbl) (L cs : Nat) (enc : Row → Row) (p0 p1 : ComposedPerm)
    (G : OmJoin.GmwEnv) (junk0 junk1 : Nat → Nat → Byte) : (Op.group g avg L cs enc p0 p1 G junk0 junk1).run m0 m1 = .error .ub := by
  obtain ⟨i0, i1, e0, e1, hkey, -, l0, -, -⟩ := GroupEnd.setup_of (hm.cols hg) hm.flags hi
  simp only [Op.run]
  rw [e0, ok_bind, e1, ok_bind]
  have hl : i0.act.length < i0.key.data.rows.length := by
    rw [l0, hact, hkey.wf0.shape.1]; exact hn
  unfold GroupBy.groupByGmw GroupBy.loadKeys
  rw [if_pos hl]
  rfl

/-- **C82 is false for a group-by after a removal.** The removal gives a table without flags, and the group-by reads a flag for every row: with any
active row left the program is undefined. -/
theorem C82_remove_group_false {m0 m1 mem : List Table} (hg : ∀ t ∈ mem, Good t) (hm : SharedMem m0 m1 mem) {i : Nat} {d0 d1 : ComposedPerm} {t : Table}
    (hp : Pre mem (.remove i d0 d1)) (ht : mem[i]? = some t) (hlive : live t ≠ []) {gc : Nat} {avg : List Nat} (hgc : gc < t.cols.length)
    (havg : ∀ c ∈ avg, c < t.cols.length) (L cs : Nat) (enc : Row → Row) (p0 p1 : ComposedPerm) (G : OmJoin.GmwEnv) (junk0 junk1 : Nat → Nat → Byte)
    (os : List Op) : run (.remove i d0 d1 :: .group ⟨mem.length, gc⟩ (avg.map fun c => ⟨mem.length, c⟩) L cs enc p0 p1 G junk0 junk1 :: os) m0 m1 = .error .ub := by
  obtain ⟨u0, u1, u, e, hs, hu, t', b1, b2, b3, b4⟩ := op_ok hg hm hp
  rw [ht] at b1
  injection b1 with b1
  subst b1
  have hlen : u.cols.length = t.cols.length := by simpa [Table.getColumnInfo] using congrArg List.length b2
  have hmem : (mem ++ [u])[mem.length]? = some u := by simp
  have hget : ∀ c (hc : c < t.cols.length), ColRef.get (mem ++ [u]) ⟨mem.length, c⟩ = .ok (u.cols.getD c ⟨⟨[], .int, 0⟩, ⟨0, 0, []⟩⟩) := fun c hc =>
    get_ok.mpr ⟨u, hmem, by rw [List.getD_eq_getElem?_getD, List.getElem?_eq_getElem (show c < u.cols.length by omega)]; rfl⟩
  have hi : mkInp (mem ++ [u]) ⟨mem.length, gc⟩ (avg.map fun c => ⟨mem.length, c⟩) =
      .ok ⟨u.cols.getD gc ⟨⟨[], .int, 0⟩, ⟨0, 0, []⟩⟩, (avg.map fun c => (⟨mem.length, c⟩ : ColRef)).map fun c => u.cols.getD c.col ⟨⟨[], .int, 0⟩, ⟨0, 0, []⟩⟩, []⟩ := by
    unfold mkInp
    rw [Gmw.rd_ok_iff.mpr hmem, ok_bind, hget gc hgc, ok_bind, mapRes_ok (g := fun c => u.cols.getD c.col ⟨⟨[], .int, 0⟩, ⟨0, 0, []⟩⟩) (by
      intro x hx
      obtain ⟨c, hc, rfl⟩ := List.mem_map.mp hx
      exact hget c (havg c hc)), ok_bind]
    have : ((avg.map fun c => (⟨mem.length, c⟩ : ColRef)).any fun c => c.tbl != mem.length) = false := by
      simp
    simp only [this]
    rw [b3]
    rfl
  have hrows : 0 < u.rows := by
    have h1 := b4.length_eq
    unfold content at h1
    rw [List.length_map, List.length_map, live_all (by rw [b3]; simp) (Or.inl b3), List.length_range] at h1
    rw [h1]
    exact List.length_pos_iff.mpr hlive
  simp only [run]
  rw [e, ok_bind]
  simp only []
  rw [group_ub (fun s hs' => by
    rcases List.mem_append.mp hs' with h | h
    · exact hg s h
    · rw [List.mem_singleton.mp h]; exact hu) (hm.push hs) hi rfl (by simp only [numRows, hmem]; exact hrows)]
  rfl

/-! ## The hypotheses can be met -/

/-- A decidable form of `Good` for tables without string columns. -/
def check (t : Table) : Bool :=
  t.cols.all (fun c => c.data.bits == c.info.bits && c.data.cols == divCeil c.info.bits 8 && c.data.rows.length == t.rows && decide (c.info.type ≠ .string) &&
    c.data.rows.all fun x => x.length == divCeil c.info.bits 8 && (List.range (8 * x.length)).all fun j => decide (j < c.info.bits) || !bitOf x j) &&
  decide (t.cols.map (·.info.name)).Nodup && !t.cols.isEmpty && (t.isActive.isEmpty || t.isActive.length == t.rows) && t.isActive.all fun f => f == 0 || f == 1

theorem good_of {t : Table} (h : check t = true) : Good t := by
  unfold check at h
  simp only [Bool.and_eq_true, List.all_eq_true, beq_iff_eq, decide_eq_true_eq, Bool.or_eq_true, Bool.not_eq_true', List.mem_range, List.isEmpty_iff] at h
  obtain ⟨⟨⟨⟨h1, h2⟩, h3⟩, h4⟩, h5⟩ := h
  have hne : t.cols ≠ [] := by intro e; rw [e] at h3; cases h3
  refine ⟨⟨fun c hc => ?_, h2, fun e => absurd e hne, h4⟩, fun c hc i hi k hk => ?_, h5⟩
  · obtain ⟨⟨⟨⟨a1, a2⟩, a3⟩, a4⟩, a5⟩ := h1 c hc
    exact ⟨a1, a2, ⟨a3, fun x hx => (a5 x hx).1⟩, fun e => absurd e a4⟩
  · obtain ⟨⟨⟨⟨a1, a2⟩, a3⟩, a4⟩, a5⟩ := h1 c hc
    have hl : i < c.data.rows.length := by omega
    rw [List.getD_eq_getElem?_getD, List.getElem?_eq_getElem hl, Option.getD_some]
    obtain ⟨b1, b2⟩ := a5 _ (List.getElem_mem hl)
    by_cases hj : k < 8 * (c.data.rows[i]).length
    · exact (b2 k hj).resolve_left (by omega)
    · exact bitOf_ge (by omega)

/-- People with a number, a department and a salary. -/
def people : Table :=
  ⟨[], [⟨⟨[105], .int, 2⟩, ⟨2, 1, [[1], [2], [3]]⟩⟩, ⟨⟨[100], .int, 3⟩, ⟨3, 1, [[5], [6], [5]]⟩⟩, ⟨⟨[115], .int, 8⟩, ⟨8, 1, [[10], [20], [30]]⟩⟩]⟩

/-- Visits by people, with a mark. -/
def visits : Table := ⟨[1, 1, 1], [⟨⟨[107], .int, 2⟩, ⟨2, 1, [[1], [2], [3]]⟩⟩, ⟨⟨[118], .int, 1⟩, ⟨1, 1, [[1], [0], [0]]⟩⟩]⟩

theorem ex_good : ∀ t ∈ [people, visits], Good t := by
  intro t ht
  rcases List.mem_cons.mp ht with rfl | ht
  · exact good_of (by decide +kernel)
  · rw [List.mem_singleton.mp ht]; exact good_of (by decide +kernel)

/-- The filter set up for the visits with the circuit `Gmw.demo`. -/
def exW : WhereT.Where :=
  ⟨3, visits.getColumnInfo, [0, 1], ⟨[[0, 1], [2], [3]], [[4]], 7, [⟨0, 1, 6, .and⟩, ⟨6, 2, 5, .xor⟩, ⟨5, 3, 4, .and⟩], fun _ => .plain⟩⟩

def exLv : List (List Gmw.Gate) := exW.clause.gates.map fun g => [g]

theorem ex_filter : ∃ E : Gmw.Wires.Env, Pre [people, visits] (.filter 1 [0, 1] Gmw.demo 7 exLv E) := by
  obtain ⟨a0, a1, hE⟩ := Gmw.Wires.env_exists 3 ⟨exW.clause.wireCount, exW.clause.inputs, exW.clause.outputs, exLv⟩ (fun _ _ => 7) (fun _ _ => 9)
    (fun _ _ => true) (fun _ _ => false)
  refine ⟨⟨fun _ _ => 7, fun _ _ => 9, fun _ _ => true, fun _ _ => false, a0, a1⟩, visits, rfl, Gmw.demo_wf, fun _ _ => rfl, rfl, rfl, rfl, by decide, rfl, by decide, fun w hw => ?_⟩
  have : WhereT.init 7 [] visits.rows visits.getColumnInfo [0, 1] Gmw.demo = .ok exW := rfl
  rw [this] at hw
  injection hw with hw
  subst hw
  refine ⟨Gmw.Wires.levelled_single (by decide) ?_ (by decide) (by decide), hE⟩
  intro g hg
  have : g = ⟨0, 1, 6, .and⟩ ∨ g = ⟨6, 2, 5, .xor⟩ ∨ g = ⟨5, 3, 4, .and⟩ := by simpa [exW] using hg
  rcases this with rfl | rfl | rfl <;> exact ⟨by decide, by decide, by decide, by decide⟩

theorem two_cols {u : Table} {a b : ColumnInfo} (h : u.getColumnInfo = [a, b]) : ∃ x y, u = ⟨u.isActive, [⟨a, x⟩, ⟨b, y⟩]⟩ := by
  obtain ⟨fl, cols⟩ := u
  match cols, h with
  | [⟨a', x⟩, ⟨b', y⟩], h =>
    simp only [Table.getColumnInfo, List.map_cons, List.map_nil, List.cons.injEq, and_true] at h
    obtain ⟨rfl, rfl⟩ := h
    exact ⟨x, y, rfl⟩

theorem three_cols {u : Table} {a b c : ColumnInfo} (h : u.getColumnInfo = [a, b, c]) : ∃ x y z, u = ⟨u.isActive, [⟨a, x⟩, ⟨b, y⟩, ⟨c, z⟩]⟩ := by
  obtain ⟨fl, cols⟩ := u
  match cols, h with
  | [⟨a', x⟩, ⟨b', y⟩, ⟨c', z⟩], h =>
    simp only [Table.getColumnInfo, List.map_cons, List.map_nil, List.cons.injEq, and_true] at h
    obtain ⟨rfl, rfl, rfl⟩ := h
    exact ⟨x, y, z, rfl⟩

/-- There are correlations for a program with all four operations: the visits that satisfy the predicate, without the others, joined with the people, and the
salaries added up by department. -/
theorem ex_safe : ∃ (E : Gmw.Wires.Env) (d0 d1 p0 p1 e0 e1 : ComposedPerm) (G H : OmJoin.GmwEnv), ∀ (junk0 junk1 : Nat → Nat → Byte) (enc : Row → Row),
    Safe [.filter 1 [0, 1] Gmw.demo 7 exLv E, .remove 2 d0 d1, .join ⟨0, 0⟩ ⟨3, 0⟩ [⟨0, 1⟩, ⟨0, 2⟩, ⟨3, 1⟩] 2 48 enc p0 p1 G,
      .group ⟨4, 0⟩ [⟨4, 1⟩] 2 48 enc e0 e1 H junk0 junk1] [people, visits] := by
  obtain ⟨E, hE⟩ := ex_filter
  let S : List (Bool × Column) := [(true, ⟨⟨[100], .int, 3⟩, ⟨3, 1, [[5], [6], [5]]⟩⟩), (true, ⟨⟨[115], .int, 8⟩, ⟨8, 1, [[10], [20], [30]]⟩⟩),
    (false, ⟨⟨[118], .int, 1⟩, ⟨0, 0, []⟩⟩)]
  let I : GroupBy.Inp := ⟨⟨⟨[100], .int, 3⟩, ⟨0, 0, []⟩⟩, [⟨⟨[115], .int, 8⟩, ⟨0, 0, []⟩⟩], []⟩
  obtain ⟨d0, d1, hd⟩ := GroupBy.anyComposed 3 (1 + Extract.infoBytes visits.getColumnInfo)
  obtain ⟨p0, p1, hp⟩ := GroupBy.anyComposed 5 (OmJoin.permBytes (8 * OmJoin.dataBytes S (2 ^ 1)) (2 ^ 1))
  obtain ⟨G, hG⟩ := EndToEnd.anyGmw (n := 5) (bits := 2 ^ 1) (L := 2) (w := OmJoin.dataBytes S (2 ^ 1)) (by omega) (by decide) (by decide) (by omega)
  obtain ⟨H, hH⟩ := GroupBy.env_exists (n := 2) (bits := 2 ^ 2) (L := 2) (ss := GroupBy.sizes I) (by decide) (by decide) (by decide) (by decide)
    (by decide) (fun _ _ => 5) (fun _ _ => true) (fun _ _ _ => true)
  obtain ⟨e0, e1, he⟩ := GroupBy.anyComposed 2 (GroupBy.permBytes (GroupBy.dataBits I (2 ^ 2)) (2 ^ 2) false)
  refine ⟨E, d0, d1, p0, p1, e0, e1, G, H, fun junk0 junk1 enc => ⟨hE, fun u1 hu1 f1 => ?_⟩⟩
  obtain ⟨t, a1, a2, a3, a4⟩ := f1
  have ht : t = visits := by simpa using a1.symm
  subst ht
  have r1 : u1.rows = 3 := by unfold Table.rows; rw [a2]; rfl
  have i1 : u1.getColumnInfo = visits.getColumnInfo := by unfold Table.getColumnInfo; rw [a2]
  refine ⟨⟨u1, _, rfl, a3, by omega, rfl, by rw [r1, i1]; exact hd⟩, fun u2 hu2 f2 => ?_⟩
  obtain ⟨t, b1, b2, b3, b4⟩ := f2
  have ht : t = u1 := by simpa using b1.symm
  subst ht
  have r2 : u2.rows = 2 := by
    have h1 := b4.length_eq
    unfold content at h1
    rw [List.length_map, List.length_map, live_all (by rw [b3]; simp) (Or.inl b3), List.length_range, a4] at h1
    rw [h1]
    decide
  obtain ⟨x, y, hx⟩ := two_cols (b2.trans i1)
  rw [b3] at hx
  refine ⟨⟨⟨⟨⟨[105], .int, 2⟩, ⟨2, 1, [[1], [2], [3]]⟩⟩, ⟨⟨[107], .int, 2⟩, x⟩, [(true, ⟨⟨[100], .int, 3⟩, ⟨3, 1, [[5], [6], [5]]⟩⟩),
    (true, ⟨⟨[115], .int, 8⟩, ⟨8, 1, [[10], [20], [30]]⟩⟩), (false, ⟨⟨[118], .int, 1⟩, y⟩)]⟩, 1, _, by rw [hx]; rfl, ?_, ?_, by simp,
    show ([[100], [115], [118]] : List (List Byte)).Nodup by decide, show 0 < 3 by decide, ?_, ?_, by omega, by omega, rfl, by decide, ?_, rfl, ?_⟩,
    fun u3 hu3 f3 => ?_⟩
  · intro t ht
    have : t = people := by simpa using ht.symm
    subst this
    intro f hf
    cases hf
  · intro t ht
    have : t = u2 := by simpa using ht.symm
    subst this
    rw [b3]
    simp
  · show 0 < u2.rows
    omega
  · show 3 + u2.rows ≤ 2 ^ 32
    omega
  · show OmJoin.GmwEnv.Ok G (3 + u2.rows) _ _ _
    rw [r2]
    exact hG
  · show ValidComposed (3 + u2.rows) _ _ _ _ _ _
    rw [r2]
    exact hp
  · obtain ⟨tl, tr, -, c2, c3, c4, c5, -⟩ := f3
    have ht : tr = u2 := by simpa using c2.symm
    subst ht
    have i3 : u3.getColumnInfo = [⟨[100], .int, 3⟩, ⟨[115], .int, 8⟩, ⟨[118], .int, 1⟩] := by
      have : u3.getColumnInfo.map some = [some ⟨[100], .int, 3⟩, some ⟨[115], .int, 8⟩, some ⟨[118], .int, 1⟩] := by
        rw [c3, hx]
        rfl
      exact List.map_injective_iff.mpr (Option.some_injective _) this
    obtain ⟨z1, z2, z3, hz⟩ := three_cols i3
    have hn : numRows ([people, visits] ++ [t] ++ [tr] ++ [u3]) 4 = 2 := by show u3.rows = 2; omega
    refine ⟨⟨⟨⟨⟨[100], .int, 3⟩, z1⟩, [⟨⟨[115], .int, 8⟩, z2⟩], u3.isActive⟩, 2, _, by rw [hz]; rfl, ?_, ?_, by simp, ?_, ?_, by omega, by omega, rfl,
      by decide, ?_, rfl, ?_⟩, fun _ _ _ => trivial⟩
    · show u3.isActive.length = u3.rows
      omega
    · show ([[100], [115], [67, 111, 117, 110, 116]] : List (List Byte)).Nodup
      decide
    · exact hn.ge
    · show numRows ([people, visits] ++ [t] ++ [tr] ++ [u3]) 4 ≤ 2 ^ 32
      rw [hn]
      decide
    · show GroupBy.EnvOk H (numRows ([people, visits] ++ [t] ++ [tr] ++ [u3]) 4) _ _ _
      rw [hn]
      exact hH
    · show ValidComposed (numRows ([people, visits] ++ [t] ++ [tr] ++ [u3]) 4) _ _ _ _ _ _
      rw [hn]
      exact he

theorem Safe.take {os os' : List Op} : ∀ {mem : List Table}, Safe (os ++ os') mem → Safe os mem := by
  induction os with
  | nil => exact fun _ => trivial
  | cons o os ih => exact fun h => ⟨h.1, fun u hu he => ih (h.2 u hu he)⟩

/-- `C82_program_partial` and `C82_query_partial` for the example: of the three visits two satisfy the predicate. -/
example (rnd : Nat → Nat → Nat → Nat → Byte) (rndF : Nat → Nat → Byte) : ∃ (E : Gmw.Wires.Env) (d0 d1 p0 p1 e0 e1 : ComposedPerm) (G H : OmJoin.GmwEnv) (s u : Table),
    program rnd rndF [.filter 1 [0, 1] Gmw.demo 7 exLv E, .remove 2 d0 d1, .join ⟨0, 0⟩ ⟨3, 0⟩ [⟨0, 1⟩, ⟨0, 2⟩, ⟨3, 1⟩] 2 48 id p0 p1 G] 4 [people, visits] = .ok s ∧
    (tableRows s).Perm [[some [5], some [10], some [1]], [some [5], some [30], some [0]]] ∧
    program rnd rndF [.filter 1 [0, 1] Gmw.demo 7 exLv E, .remove 2 d0 d1, .join ⟨0, 0⟩ ⟨3, 0⟩ [⟨0, 1⟩, ⟨0, 2⟩, ⟨3, 1⟩] 2 48 id p0 p1 G,
      .group ⟨4, 0⟩ [⟨4, 1⟩] 2 48 id e0 e1 H (fun _ _ => 1) (fun _ _ => 2)] 5 [people, visits] = .ok u := by
  obtain ⟨E, d0, d1, p0, p1, e0, e1, G, H, h⟩ := ex_safe
  have h := h (fun _ _ => 1) (fun _ _ => 2) id
  obtain ⟨s, es, hs⟩ := C82_query_partial (i := 1) (rc := 0) (l := ⟨0, 0⟩) (sel := [⟨0, 1⟩, ⟨0, 2⟩, ⟨1, 1⟩]) ex_good rfl rfl (by decide) (Safe.take h) rnd rndF
  obtain ⟨-, -, u, -, -, eu, -⟩ := C82_program_partial ex_good h (k := 5) (by simp) rnd rndF
  exact ⟨E, d0, d1, p0, p1, e0, e1, G, H, s, u, es, by
    refine hs.trans (List.Perm.of_eq ?_)
    decide, eu⟩

/-- **C82 is false for a join after a filter** without a removal between them: the second of three visits does not satisfy the predicate, and
the join of the filtered visits with the people shows it all the same. No table that the program gives on the plaintext has these rows. -/
theorem C82_filter_join_false (rnd : Nat → Nat → Nat → Nat → Byte) (rndF : Nat → Nat → Byte) :
    ∃ (E : Gmw.Wires.Env) (p0 p1 : ComposedPerm) (G : OmJoin.GmwEnv) (s : Table), sat Gmw.demo visits 1 = false ∧
      program rnd rndF [.filter 1 [0, 1] Gmw.demo 7 exLv E, .join ⟨0, 0⟩ ⟨2, 0⟩ [⟨0, 2⟩, ⟨2, 0⟩] 2 48 id p0 p1 G] 3 [people, visits] = .ok s ∧
      tableRows s = [[some [10], some [1]], [some [20], some [2]], [some [30], some [3]]] ∧
      ∀ mem' w, Effects [.filter 1 [0, 1] Gmw.demo 7 exLv E, .join ⟨0, 0⟩ ⟨2, 0⟩ [⟨0, 2⟩, ⟨2, 0⟩] 2 48 id p0 p1 G] [people, visits] mem' → mem'[3]? = some w →
        ¬ (tableRows s).Perm (content w) := by
  obtain ⟨E, hE⟩ := ex_filter
  let S : List (Bool × Column) := [(true, ⟨⟨[115], .int, 8⟩, ⟨8, 1, [[10], [20], [30]]⟩⟩), (false, ⟨⟨[107], .int, 2⟩, ⟨2, 1, [[1], [2], [3]]⟩⟩)]
  obtain ⟨p0, p1, hp⟩ := GroupBy.anyComposed 6 (OmJoin.permBytes (8 * OmJoin.dataBytes S (2 ^ 1)) (2 ^ 1))
  obtain ⟨G, hG⟩ := EndToEnd.anyGmw (n := 6) (bits := 2 ^ 1) (L := 2) (w := OmJoin.dataBytes S (2 ^ 1)) (by omega) (by decide) (by decide) (by omega)
  obtain ⟨m0, m1, e, hm⟩ := shareMem_shared ex_good rnd rndF
  obtain ⟨u0, u1, u, e1, hu, gu, f⟩ := op_ok ex_good hm hE
  obtain ⟨t, a1, a2, -, -⟩ := f
  have ht : t = visits := by simpa using a1.symm
  subst ht
  obtain ⟨fl, cols⟩ := u
  simp only [] at a2
  subst a2
  have hg' : ∀ t ∈ [people, visits] ++ [⟨fl, visits.cols⟩], Good t := fun s hs' => by
    rcases List.mem_append.mp hs' with h | h
    · exact ex_good s h
    · rw [List.mem_singleton.mp h]; exact gu
  obtain ⟨v0, v1, s, e2, es, hs⟩ := C82_join_flags (l := ⟨0, 0⟩) (r := ⟨2, 0⟩) (sel := [⟨0, 2⟩, ⟨2, 0⟩]) (cs := 48) (k := 1) (L := 2) (enc := id) (p0 := p0) (p1 := p1) (G := G)
    (q := ⟨⟨⟨[105], .int, 2⟩, ⟨2, 1, [[1], [2], [3]]⟩⟩, ⟨⟨[107], .int, 2⟩, ⟨2, 1, [[1], [2], [3]]⟩⟩, S⟩) hg' (hm.push hu) rfl (by simp)
    (show ([[115], [107]] : List (List Byte)).Nodup by decide) (show 0 < 3 by decide) (show 0 < 3 by decide) (show 6 ≤ 2 ^ 32 by decide)
    (by omega) (by omega) rfl (by decide) hG rfl hp
  have hrows : tableRows s = [[some [10], some [1]], [some [20], some [2]], [some [30], some [3]]] := by
    rw [hs]
    rfl
  refine ⟨E, p0, p1, G, s, by decide, ?_, hrows, ?_⟩
  · unfold program
    rw [e, ok_bind]
    simp only [run]
    rw [e1, ok_bind]
    simp only []
    rw [e2, ok_bind, ok_bind]
    simp only []
    have g0 : (m0 ++ [u0] ++ [v0])[3]? = some v0 := by
      have : 3 = (m0 ++ [u0]).length := by simp [hm.len0]
      rw [this]; simp
    have g1 : (m1 ++ [u1] ++ [v1])[3]? = some v1 := by
      have : 3 = (m1 ++ [u1]).length := by simp [hm.len1]
      rw [this]; simp
    rw [Gmw.rd_ok_iff.mpr g0, ok_bind, Gmw.rd_ok_iff.mpr g1, ok_bind]
    exact es
  · intro mem' w he hw hperm
    cases he with
    | @cons _ _ _ _ x1 f1 he =>
    cases he with
    | @cons _ _ _ _ x2 f2 he =>
    cases he
    have hw' : w = x2 := by simpa using hw.symm
    subst hw'
    obtain ⟨t, b1, b2, b3, b4⟩ := f1
    have ht : t = visits := by simpa using b1.symm
    subst ht
    obtain ⟨tl, tr, -, c2, -, -, -, c6⟩ := f2
    have ht : tr = x1 := by simpa using c2.symm
    subst ht
    have h1 := hperm.length_eq
    rw [hrows, c6, List.length_map] at h1
    unfold livePairs at h1
    have h2 := List.length_filterMap_le (fun b => ((live tl).find? fun a => cell ([people, visits] ++ [tr]) ⟨0, 0⟩ a ==
      cell ([people, visits] ++ [tr]) ⟨2, 0⟩ b).map fun a => (a, b)) (live tr)
    have h3 : (live tr).length = 2 := by rw [b4]; decide
    simp only [List.length_cons, List.length_nil] at h1
    omega

/-- `C82_remove_group_false` for the visits. -/
example (m0 m1 : List Table) (hm : SharedMem m0 m1 [people, visits]) (G : OmJoin.GmwEnv) (p0 p1 : ComposedPerm) : ∃ d0 d1 : ComposedPerm,
    run [.remove 1 d0 d1, .group ⟨2, 1⟩ [⟨2, 0⟩] 2 48 id p0 p1 G (fun _ _ => 1) (fun _ _ => 2)] m0 m1 = .error .ub := by
  obtain ⟨d0, d1, hd⟩ := GroupBy.anyComposed 3 (1 + Extract.infoBytes visits.getColumnInfo)
  exact ⟨d0, d1, C82_remove_group_false (avg := [0]) ex_good hm ⟨visits, _, rfl, rfl, by decide, rfl, hd⟩ rfl (by decide) (by decide) (by decide)
    2 48 id p0 p1 G (fun _ _ => 1) (fun _ _ => 2) []⟩

/-- There are shares of the tables of the example. -/
example : ∃ m0 m1, SharedMem m0 m1 [people, visits] := by
  obtain ⟨m0, m1, -, h⟩ := shareMem_shared ex_good (fun _ _ _ _ => 3) (fun _ _ => 7)
  exact ⟨m0, m1, h⟩

end Chain
end SecJoin
