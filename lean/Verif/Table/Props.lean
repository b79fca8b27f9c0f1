import Verif.Table.Files
/-!
# Properties of plaintext tables: C09 (tables), C10, C11, C12, C14
-/
namespace SecJoin
namespace Table

/-- The cells of row `i`, one for each column. -/
def rowAt (t : Table) (i : Nat) : List (Option Row) := t.cols.map fun c => c.data.rows[i]?

/-- No bits are set beyond the declared width of the columns. -/
def Clean (t : Table) (n : Nat) : Prop :=
  ∀ c ∈ t.cols, ∀ i < n, ∀ k, c.info.bits ≤ k → bitOf (c.data.rows.getD i []) k = false

instance (n c : Nat) (x : List Row) : Decidable (Shape n c x) := inferInstanceAs (Decidable (_ ∧ _))

/-! ## C14 -/

/-- Extracting the active rows: same columns, flags cleared, and row `k` of the result is row
`idx[k]` of the table, for all columns alike, where `idx` lists in order the positions of the flags
that are one. -/
theorem C14_extract {t : Table} {n : Nat} (ht : t.WF n) (hf : t.isActive.length = n) :
    ∃ r, t.extractActive = .ok r ∧ r.isActive = [] ∧ r.getColumnInfo = t.getColumnInfo ∧
      (∀ c ∈ r.cols, c.WF ((List.range n).filter (fun i => t.isActive.getD i 0 == 1)).length) ∧
      ∀ k, r.rowAt k =
        match ((List.range n).filter (fun i => t.isActive.getD i 0 == 1))[k]? with
        | some i => t.rowAt i
        | none => t.cols.map fun _ => none := by
  have key : ∀ (rows : List Row), rows.length = n → keep t.isActive rows =
      ((List.range n).filter (fun i => t.isActive.getD i 0 == 1)).map (fun i => rows.getD i []) := by
    intro rows hr
    have hz : t.isActive.zip rows = (List.range n).map (fun i => (t.isActive.getD i 0, rows.getD i [])) := by
      apply List.ext_getElem
      · simp [hr, hf]
      · intro i h1 h2
        simp only [List.length_zip, Nat.lt_min] at h1
        simp [h1]
    unfold keep
    rw [hz, List.filter_map, List.map_map]
    rfl
  refine ⟨_, extractActive_eq (n := n) ?_ ht.empty hf, rfl, ?_, ?_, ?_⟩
  · intro c hc
    have := ht.col c hc
    exact ⟨this.shape.1, by rw [this.bits, this.cols]⟩
  · simp [getColumnInfo, withRows]
  · intro c hc
    simp only [List.mem_map] at hc
    obtain ⟨c0, hc0, rfl⟩ := hc
    have hw := ht.col c0 hc0
    refine ⟨hw.bits, hw.cols, ?_, hw.str⟩
    simp only [withRows]
    rw [key _ hw.shape.1]
    refine ⟨by simp, fun r hr => ?_⟩
    simp only [List.mem_map, List.mem_filter, List.mem_range] at hr
    obtain ⟨i, hi, rfl⟩ := hr
    have hi : i < c0.data.rows.length := by rw [hw.shape.1]; exact hi.1
    rw [List.getD_eq_getElem?_getD, List.getElem?_eq_getElem hi]
    exact hw.shape.2 _ (List.getElem_mem hi)
  · intro k
    simp only [rowAt, List.map_map]
    have e : ∀ c ∈ t.cols, ((fun c : Column => c.data.rows[k]?) ∘ withRows (keep t.isActive)) c =
        (((List.range n).filter (fun i => t.isActive.getD i 0 == 1)).map
          (fun i => c.data.rows.getD i []))[k]? := by
      intro c hc
      simp only [Function.comp, withRows]
      rw [key _ (ht.col c hc).shape.1]
    rw [List.map_congr_left e]
    match hk : ((List.range n).filter (fun i => t.isActive.getD i 0 == 1))[k]? with
    | none =>
      apply List.map_congr_left
      intro c _
      rw [List.getElem?_map, hk]; rfl
    | some i =>
      apply List.map_congr_left
      intro c hc
      have hi : i < n := by
        have := List.mem_of_getElem? hk
        simp only [List.mem_filter, List.mem_range] at this
        exact this.1
      rw [List.getElem?_map, hk]
      have : i < c.data.rows.length := by rw [(ht.col c hc).shape.1]; exact hi
      simp [this]

/-- Without a flag column all rows are kept. -/
theorem C14_extract_no_flags (t : Table) (h : t.isActive = []) : t.extractActive = .ok t := by
  simp [extractActive, h]

/-- Permuting a table moves every column and the flags by the same permutation: with the regular
mode row `i` of the result is row `p i` of the table, with the inverse mode row `p i` of the result
is row `i` of the table. -/
theorem C14_permute {t : Table} {n : Nat} {p : Perm} (op : PermOp) (ht : t.WF n)
    (hb : IsBijection p.pi) (hn : p.pi.length = n) :
    ∃ r, t.permute p op = .ok r ∧ r.getColumnInfo = t.getColumnInfo ∧ r.WF n ∧
      r.isActive.length = t.isActive.length ∧
      ∀ i (hi : i < p.pi.length),
        (op = .regular → r.rowAt i = t.rowAt p.pi[i] ∧ r.isActive[i]? = t.isActive[p.pi[i]]?) ∧
        (op = .inverse → r.rowAt p.pi[i] = t.rowAt i ∧ r.isActive[p.pi[i]]? = t.isActive[i]?) := by
  have hp : IsPermList p.pi := (isBijection_iff _).1 hb
  have hpi := invList_isPerm hp
  have hb1 : ∀ {α : Type} {x : List α}, x.length = n → ∀ a ∈ p.pi, a < x.length := by
    intro α x hx; rw [hx, ← hn]; exact hp.1
  have hb2 : ∀ {α : Type} {x : List α}, x.length = n → ∀ a ∈ invList p.pi, a < x.length := by
    intro α x hx; rw [hx, ← hn, ← invList_length p.pi]; exact hpi.1
  have hlen : ∀ {α : Type} (x : List α), (x = [] ∨ x.length = n) → (moved p op x).length = x.length := by
    intro α x hx
    rcases hx with rfl | hx
    · cases op <;> simp [moved, gather]
    · cases op
      · simp only [moved]; rw [gather_length (hb1 hx), hx, hn]
      · simp only [moved]; rw [gather_length (hb2 hx), hx, invList_length, hn]
  have hget : ∀ {α : Type} (x : List α), (x = [] ∨ x.length = n) → ∀ i (hi : i < p.pi.length),
      (op = .regular → (moved p op x)[i]? = x[p.pi[i]]?) ∧
      (op = .inverse → (moved p op x)[p.pi[i]]? = x[i]?) := by
    intro α x hx i hi
    rcases hx with rfl | hx
    · cases op <;> simp [moved, gather]
    · refine ⟨?_, ?_⟩
      · rintro rfl
        simp only [moved]
        rw [gather_getElem? (hb1 hx), List.getElem?_eq_getElem hi]; rfl
      · rintro rfl
        simp only [moved]
        rw [gather_getElem? (hb2 hx), invList_getElem? (hp.1 _ (List.getElem_mem hi)),
          idxOf_getElem' hp.2 hi]; rfl
  refine ⟨_, permute_eq ht hp hn, by simp [getColumnInfo, withRows], ?_, hlen _ ht.flags, ?_⟩
  · refine ⟨?_, ?_, ?_, ?_⟩
    · intro c hc
      simp only [List.mem_map] at hc
      obtain ⟨c0, hc0, rfl⟩ := hc
      have hw := ht.col c0 hc0
      refine ⟨hw.bits, hw.cols, ⟨?_, ?_⟩, hw.str⟩
      · simp only [withRows]; rw [hlen _ (Or.inr hw.shape.1), hw.shape.1]
      · intro r hr
        refine hw.shape.2 r ?_
        cases op <;> exact mem_gather hr
    · have := ht.names
      rw [List.map_map]
      exact this
    · intro h
      exact ht.empty (by simpa using h)
    · rcases ht.flags with h | h
      · left
        have := hlen t.isActive ht.flags
        rw [h] at this ⊢
        exact List.length_eq_zero_iff.1 this
      · right
        rw [hlen _ ht.flags, h]
  · intro i hi
    have hr : ∀ (a b : Nat), (∀ c ∈ t.cols, (moved p op c.data.rows)[a]? = c.data.rows[b]?) →
        rowAt ⟨moved p op t.isActive, t.cols.map (withRows (moved p op))⟩ a = t.rowAt b := by
      intro a b h
      simp only [rowAt, List.map_map]
      exact List.map_congr_left h
    exact ⟨fun h => ⟨hr _ _ fun c hc => (hget _ (Or.inr (ht.col c hc).shape.1) i hi).1 h,
        (hget _ ht.flags i hi).1 h⟩,
      fun h => ⟨hr _ _ fun c hc => (hget _ (Or.inr (ht.col c hc).shape.1) i hi).2 h,
        (hget _ ht.flags i hi).2 h⟩⟩

/-! ## C10 -/

/-- What the two shares of a table hold together: flags (all ones if there is no flag column) and
columns. -/
def joined (t0 t1 : Table) (n : Nat) : Table :=
  ⟨if t0.isActive.length = 0 then List.replicate n 1
    else (List.range n).map fun i => t0.isActive.getD i 0 ^^^ t1.isActive.getD i 0,
   List.zipWith (fun a b => ⟨a.info, ⟨a.info.bits, divCeil a.info.bits 8,
    (List.range n).map fun i => (List.range (divCeil a.info.bits 8)).map fun j =>
      (a.data.rows.getD i []).getD j 0 ^^^ (b.data.rows.getD i []).getD j 0⟩⟩) t0.cols t1.cols⟩

theorem joined_eq {t0 t1 : Table} {n : Nat} (h0 : t0.WF n) (h1 : t1.WF n)
    (hab : t0.getColumnInfo = t1.getColumnInfo) (hf : t0.isActive = [] ∨ t1.isActive.length = n) :
    joined t0 t1 n = ⟨xflags t0 t1 n, xcols t0 t1⟩ := by
  unfold joined xflags xcols
  congr 1
  · by_cases h : t0.isActive.length = 0
    · rw [if_pos h, if_pos h]
    · rw [if_neg h, if_neg h]
      have l0 : t0.isActive.length = n := by
        rcases h0.flags with h' | h'
        · simp [h'] at h
        · exact h'
      have l1 : t1.isActive.length = n := by
        rcases hf with h' | h'
        · simp [h'] at h
        · exact h'
      apply List.ext_getElem
      · simp [l0, l1]
      · intro i h2 h3
        simp only [List.length_zipWith, Nat.lt_min] at h3
        simp [h3.1, h3.2]
  · have : ∀ i, i < t0.cols.length → i < t1.cols.length → (t0.cols[i]?.map (·.info)) = (t1.cols[i]?.map (·.info)) := by
      intro i _ _
      have := congrArg (fun l => l[i]?) hab
      simpa [getColumnInfo] using this
    apply List.ext_getElem
    · simp
    · intro i h2 h3
      simp only [List.length_zipWith, Nat.lt_min] at h3
      have hi := this i h3.1 h3.2
      simp only [List.getElem?_eq_getElem h3.1, List.getElem?_eq_getElem h3.2, Option.map_some,
        Option.some.injEq] at hi
      have w0 := (h0.col _ (List.getElem_mem h3.1)).shape
      have w1 := (h1.col _ (List.getElem_mem h3.2)).shape
      rw [← hi] at w1
      simp only [List.getElem_zipWith]
      congr 2
      unfold xrows
      apply List.ext_getElem
      · simp [w0.1, w1.1]
      · intro r h4 h5
        simp only [List.length_zipWith, Nat.lt_min] at h5
        have v0 := w0.2 _ (List.getElem_mem h5.1)
        have v1 := w1.2 _ (List.getElem_mem h5.2)
        simp only [List.getElem_map, List.getElem_range, List.getElem_zipWith,
          List.getD_eq_getElem?_getD, List.getElem?_eq_getElem h5.1, List.getElem?_eq_getElem h5.2,
          Option.getD_some]
        unfold xorRow
        apply List.ext_getElem
        · simp [v0, v1]
        · intro j h6 h7
          simp only [List.length_zipWith, Nat.lt_min] at h7
          simp [h7.1, h7.2]

/-- Revealing two shares of a table reconstructs all columns and flags; with null removal the result
has no flags and the rows whose flag is one, in order. -/
theorem C10_reveal {n : Nat} {t0 t1 : Table} (h0 : t0.WF n) (h1 : t1.WF n)
    (hab : t0.getColumnInfo = t1.getColumnInfo)
    (hf : t0.isActive.length = t1.isActive.length)
    (hb : ∀ i < t0.isActive.length, (t0.isActive.getD i 0 ^^^ t1.isActive.getD i 0) = 0 ∨
      (t0.isActive.getD i 0 ^^^ t1.isActive.getD i 0) = 1) :
    reveal t0 t1 false = .ok (joined t0 t1 n) ∧
    ∃ r, reveal t0 t1 true = .ok r ∧ r.isActive = [] ∧ r.getColumnInfo = t0.getColumnInfo ∧
      ∀ k, r.rowAt k =
        match ((List.range n).filter (fun i => (joined t0 t1 n).isActive.getD i 0 == 1))[k]? with
        | some i => (joined t0 t1 n).rowAt i
        | none => t0.cols.map fun _ => none := by
  have hf' : t0.isActive = [] ∨ t1.isActive.length = n := by
    rcases h0.flags with h | h
    · exact Or.inl h
    · exact Or.inr (by omega)
  have hbb : ∀ j (h0 : j < t0.isActive.length) (h1 : j < t1.isActive.length),
      (t0.isActive[j] ^^^ t1.isActive[j]).toNat < 2 := by
    intro j h2 h3
    have := hb j h2
    simp only [List.getD_eq_getElem?_getD, List.getElem?_eq_getElem h2, List.getElem?_eq_getElem h3,
      Option.getD_some] at this
    rcases this with h | h <;> rw [h] <;> decide
  obtain ⟨e1, e2⟩ := reveal_ok h0 h1 hab hf'
  have hj := joined_eq h0 h1 hab hf'
  refine ⟨by rw [e2, hj], ?_⟩
  have lcols : t0.cols.length = t1.cols.length := by
    have := congrArg List.length hab
    simpa [getColumnInfo] using this
  have hinfo : (joined t0 t1 n).getColumnInfo = t0.getColumnInfo := by
    unfold joined getColumnInfo
    apply List.ext_getElem
    · simp [lcols]
    · intro i h2 h3; simp
  have hwf : (joined t0 t1 n).WF n := by
    refine ⟨?_, ?_, ?_, ?_⟩
    · intro c hc
      unfold joined at hc
      obtain ⟨i, hi, rfl⟩ := List.getElem_of_mem hc
      simp only [List.length_zipWith, Nat.lt_min] at hi
      have w0 := h0.col _ (List.getElem_mem hi.1)
      simp only [List.getElem_zipWith]
      refine ⟨rfl, rfl, ⟨by simp, ?_⟩, w0.str⟩
      intro r hr
      simp only [List.mem_map] at hr
      obtain ⟨a, _, rfl⟩ := hr
      simp
    · have := h0.names
      have e : (joined t0 t1 n).cols.map (·.info.name) = t0.cols.map (·.info.name) := by
        have := congrArg (List.map (·.name)) hinfo
        simp only [getColumnInfo, List.map_map] at this
        exact this
      rw [e]; exact this
    · intro h
      apply h0.empty
      have : (joined t0 t1 n).cols.length = t0.cols.length := by simp [joined, lcols]
      rw [h] at this
      exact List.length_eq_zero_iff.1 this.symm
    · right
      unfold joined
      split <;> simp
  have hfl : (joined t0 t1 n).isActive.length = n := by
    unfold joined; split <;> simp
  obtain ⟨r, hr1, hr2, hr3, -, hr4⟩ := C14_extract hwf hfl
  refine ⟨r, ?_, hr2, by rw [hr3, hinfo], ?_⟩
  · rw [e1 hbb, ← hr1, hj]
    symm
    refine extractActive_eq (n := n) (t := ⟨xflags t0 t1 n, xcols t0 t1⟩) ?_ ?_ ?_
    · exact xcols_length h0.col h1.col
    · intro h
      apply hwf.empty
      rw [hj]
      exact h
    · have := hfl
      rw [hj] at this
      exact this
  · intro k
    rw [hr4 k]
    have : ((joined t0 t1 n).cols.map fun _ => (none : Option Row)) = t0.cols.map fun _ => none := by
      rw [List.map_const', List.map_const']
      simp [joined, lcols]
    rw [this]

/-- Shares with different columns or row counts are refused. -/
theorem C10_refused {t0 t1 : Table} {b : Bool}
    (h : t0.getColumnInfo ≠ t1.getColumnInfo ∨ t0.rows ≠ t1.rows) :
    reveal t0 t1 b = .error .throw := by
  have : (t0.getColumnInfo != t1.getColumnInfo || t0.rows != t1.rows) = true := by
    rcases h with h | h
    · simp [h]
    · simp [h]
  unfold reveal
  rw [this]
  rfl

/-! ## C09 for tables -/

theorem shareCols_ok {n : Nat} (rnd : Nat → Nat → Nat → Byte) (j : Nat) {cols : List Column}
    (hw : ∀ c ∈ cols, c.WF n)
    (hcl : ∀ c ∈ cols, ∀ i < n, ∀ k, c.info.bits ≤ k → bitOf (c.data.rows.getD i []) k = false) :
    ∃ c0 c1, shareCols rnd j cols = .ok (c0, c1) ∧ c0.map (·.info) = cols.map (·.info) ∧
      c1.map (·.info) = cols.map (·.info) ∧ (∀ c ∈ c0, c.WF n) ∧ (∀ c ∈ c1, c.WF n) ∧
      (∀ c ∈ c0 ++ c1, ∀ i < n, ∀ k, c.info.bits ≤ k → bitOf (c.data.rows.getD i []) k = false) ∧
      xcols ⟨[], c0⟩ ⟨[], c1⟩ = cols := by
  induction cols generalizing j with
  | nil => exact ⟨[], [], rfl, rfl, rfl, by simp, by simp, by simp, rfl⟩
  | cons c t ih =>
    obtain ⟨t0, t1, e, i0, i1, w0, w1, cl, x⟩ := ih (j + 1) (fun a ha => hw a (by simp [ha]))
      (fun a ha => hcl a (by simp [ha]))
    obtain ⟨info, ⟨bits, cc, rows⟩⟩ := c
    have hc := hw _ (List.mem_cons_self ..)
    have hbits : bits = info.bits := hc.bits
    have hcols : cc = divCeil info.bits 8 := hc.cols
    subst hbits
    subst hcols
    have hsh : Shape n (divCeil info.bits 8) rows := hc.shape
    have hr := randRows_shape (rnd j) n (divCeil info.bits 8)
    have hx : Shape n (divCeil info.bits 8) (List.zipWith xorRow rows (randRows (rnd j) n (divCeil info.bits 8))) :=
      xm_shape hsh hr
    obtain ⟨y0, ey0, sy0, by0⟩ := maskRows_ok hr
    obtain ⟨y1, ey1, sy1, by1⟩ := maskRows_ok hx
    refine ⟨⟨info, ⟨info.bits, divCeil info.bits 8, y0⟩⟩ :: t0,
      ⟨info, ⟨info.bits, divCeil info.bits 8, y1⟩⟩ :: t1, ?_, by simp [i0], by simp [i1], ?_, ?_, ?_, ?_⟩
    · simp only [shareCols, shareBin]
      rw [if_neg (by simp), hsh.1, ey0, ok_bind, ey1, ok_bind, ok_bind, e]
      rfl
    · intro a ha
      rcases List.mem_cons.1 ha with rfl | ha
      · exact ⟨rfl, rfl, sy0, hc.str⟩
      · exact w0 a ha
    · intro a ha
      rcases List.mem_cons.1 ha with rfl | ha
      · exact ⟨rfl, rfl, sy1, hc.str⟩
      · exact w1 a ha
    · intro a ha i hi k hk
      simp only [List.cons_append, List.mem_cons, List.mem_append] at ha
      rcases ha with rfl | ha | rfl | ha
      · rw [by0 i hi, if_neg (by simp only at hk; omega)]
      · exact cl a (by simp [ha]) i hi k hk
      · rw [by1 i hi, if_neg (by simp only at hk; omega)]
      · exact cl a (by simp [ha]) i hi k hk
    · simp only [xcols] at x
      simp only [xcols, List.zipWith_cons_cons, x]
      refine congrArg (fun r => (⟨info, ⟨info.bits, divCeil info.bits 8, r⟩⟩ : Column) :: t) ?_
      unfold xrows
      refine rows_ext (n := n) (c := divCeil info.bits 8) (xm_shape sy0 sy1) hsh ?_
      intro i hi k _
      have l0 : (y0.getD i []).length = (y1.getD i []).length := by
        rw [shape_getD sy0 hi, shape_getD sy1 hi]
      rw [xm_getD sy0 sy1 hi, bitOf_xorRow l0, by0 i hi, by1 i hi]
      by_cases hk : k < info.bits
      · rw [if_pos hk, if_pos hk, xm_getD hsh hr hi, bitOf_xorRow (by rw [shape_getD hsh hi, shape_getD hr hi])]
        cases bitOf (rows.getD i []) k <;> cases bitOf ((randRows (rnd j) n (divCeil info.bits 8)).getD i []) k <;> rfl
      · rw [if_neg hk, if_neg hk]
        have := hcl _ (List.mem_cons_self ..) i hi k (by simp only; omega)
        simp only at this
        rw [this]; rfl

/-- Sharing a table and revealing the shares returns the columns and the flags of the table, for every
random stream; no share has a bit set beyond the declared width. A table without flags comes back
with all flags one. -/
theorem C09_table {t : Table} {n : Nat} (ht : t.WF n) (hcl : t.Clean n)
    (rnd : Nat → Nat → Nat → Byte) (rndF : Nat → Byte) :
    ∃ s0 s1, share rnd rndF t = .ok (s0, s1) ∧ s0.WF n ∧ s1.WF n ∧ s0.Clean n ∧ s1.Clean n ∧
      s0.getColumnInfo = t.getColumnInfo ∧ s1.getColumnInfo = t.getColumnInfo ∧
      s0.isActive.length = t.isActive.length ∧
      s0.isActive = (List.range t.isActive.length).map rndF ∧
      reveal s0 s1 false =
        .ok ⟨if t.isActive = [] then List.replicate n 1 else t.isActive, t.cols⟩ := by
  obtain ⟨c0, c1, e, i0, i1, w0, w1, cl, x⟩ := shareCols_ok rnd 0 ht.col hcl
  have hfl : ∀ (l : List Byte), l.length = t.isActive.length → l = [] ∨ l.length = n := by
    intro l hl
    rcases ht.flags with h | h
    · left; rw [h] at hl; exact List.length_eq_zero_iff.1 hl
    · right; omega
  have hwf : ∀ (l : List Byte) (c : List Column), l.length = t.isActive.length →
      c.map (·.info) = t.cols.map (·.info) → (∀ a ∈ c, a.WF n) → Table.WF ⟨l, c⟩ n := by
    intro l c hl hc hw
    refine ⟨hw, ?_, ?_, hfl l hl⟩
    · have h := ht.names
      have e : c.map (·.info.name) = t.cols.map (·.info.name) := by
        have := congrArg (List.map (·.name)) hc
        simp only [List.map_map] at this
        exact this
      rw [e]; exact h
    · intro h
      apply ht.empty
      have := congrArg List.length hc
      simp only [List.length_map] at this
      simp only at h
      rw [h] at this
      exact List.length_eq_zero_iff.1 this.symm
  have l0 : ((List.range t.isActive.length).map rndF).length = t.isActive.length := by simp
  have l1 : (List.zipWith (· ^^^ ·) ((List.range t.isActive.length).map rndF) t.isActive).length =
      t.isActive.length := by simp
  refine ⟨⟨(List.range t.isActive.length).map rndF, c0⟩,
    ⟨List.zipWith (· ^^^ ·) ((List.range t.isActive.length).map rndF) t.isActive, c1⟩, ?_,
    hwf _ _ l0 i0 w0, hwf _ _ l1 i1 w1, fun c hc => cl c (by simp [show c ∈ c0 from hc]),
    fun c hc => cl c (by simp [show c ∈ c1 from hc]), i0, i1, l0, rfl, ?_⟩
  · simp only [share]
    rw [e]; rfl
  · have hx : xcols ⟨(List.range t.isActive.length).map rndF, c0⟩
        ⟨List.zipWith (· ^^^ ·) ((List.range t.isActive.length).map rndF) t.isActive, c1⟩ = t.cols := x
    rw [(reveal_ok (n := n) (hwf _ _ l0 i0 w0) (hwf _ _ l1 i1 w1) (i0.trans i1.symm) ?_).2, hx]
    · congr 2
      unfold xflags
      by_cases h : t.isActive = []
      · simp [h]
      · have : ¬ t.isActive.length = 0 := by simpa using h
        simp only [l0]
        rw [if_neg this, if_neg h]
        apply List.ext_getElem
        · simp
        · intro i h1 h2
          simp [← BitVec.xor_assoc]
    · rcases ht.flags with h | h
      · left; simp [h]
      · right; rw [l1, h]

/-! ## C11 -/

/-- Reading a binary file: the table read is the one written, and the stream stands behind it,
whatever follows. The flags of the reading table are not touched. -/
theorem C11_roundtrip {t : Table} {n : Nat} (ht : t.WF n)
    (hname : ∀ c ∈ t.cols, c.info.name.length ≤ 512) (hbits : ∀ c ∈ t.cols, c.info.bits ≤ 2 ^ 14)
    (hn : n < 2 ^ 64) (hc : t.cols.length < 2 ^ 64) (old rest : List Byte) :
    readBin old (writeBin t ++ rest) = .ok (⟨old, t.cols⟩, rest) := by
  unfold readBin writeBin
  simp only [List.append_assoc]
  rw [readN_append (u64Bytes_length _)]
  simp only
  rw [readN_append (u64Bytes_length _)]
  simp only
  rw [bytesNat_u64Bytes hc, ht.rows_eq, bytesNat_u64Bytes hn,
    readBinHeaders_ok hname hbits (fun c hc => (ht.col c hc).str), ok_bind]
  simp only
  rw [readBinData_ok ht.col]

/-- A file whose first column has an over-long name, an unknown type or an excessive width is
refused. -/
theorem C11_refused (old rest name : List Byte) (cols rows nameSize bits : Nat) (ty : Byte)
    (hc : cols < 2 ^ 64) (hr : rows < 2 ^ 64) (hc0 : 0 < cols) (hs : nameSize < 2 ^ 64)
    (hb : bits < 2 ^ 64) (hn : nameSize ≤ 512 → name.length = nameSize)
    (h : 512 < nameSize ∨ 3 < ty.toNat ∨ 2 ^ 14 < bits) :
    readBin old (u64Bytes cols ++ (u64Bytes rows ++ (u64Bytes nameSize ++ (name ++ (ty ::
      (u64Bytes bits ++ rest)))))) = .error .throw := by
  obtain ⟨k, rfl⟩ : ∃ k, cols = k + 1 := ⟨cols - 1, by omega⟩
  unfold readBin
  rw [readN_append (u64Bytes_length _)]
  simp only
  rw [readN_append (u64Bytes_length _)]
  simp only
  rw [bytesNat_u64Bytes hc, bytesNat_u64Bytes hr]
  simp only [readBinHeaders, readBinHeader]
  rw [readN_append (u64Bytes_length _)]
  simp only
  rw [bytesNat_u64Bytes hs]
  by_cases h1 : 512 < nameSize
  · rw [decide_eq_true h1]; rfl
  · rw [decide_eq_false h1, throwIf_false, ok_bind, readN_append (hn (by omega))]
    simp only
    by_cases h2 : 3 < ty.toNat
    · rw [decide_eq_true h2]; rfl
    · rw [decide_eq_false h2, throwIf_false, ok_bind, readN_append (u64Bytes_length _)]
      simp only
      rw [bytesNat_u64Bytes hb, decide_eq_true (show bits > 2 ^ 14 by omega)]; rfl

/-- The length of a file is not checked: cutting off all data bytes gives a table of zeros and no
error. -/
theorem C11_truncated_accepted :
    readBin [] (u64Bytes 1 ++ u64Bytes 2 ++ (u64Bytes 1 ++ [97] ++ [0] ++ u64Bytes 8)) =
      .ok (⟨[], [⟨⟨[97], .int, 8⟩, ⟨8, 1, [[0], [0]]⟩⟩]⟩, []) := by decide +kernel

/-! ## C12 -/

/-- Reading a CSV file that the writer produced gives the table that was written, if no column name
contains a space and the entries of Boolean columns are 0 or 1. What is missing: names with spaces
and Boolean columns with more than one bit set are written but not read back, see below. -/
theorem C12_roundtrip_partial {t : Table} {n : Nat} (ht : t.WF n)
    (hname : ∀ c ∈ t.cols, (32 : Byte) ∉ c.info.name)
    (hbool : ∀ c ∈ t.cols, c.info.type = .boolean → ∀ i < n, boolRow (c.data.rows.getD i []))
    (hbits : ∀ c ∈ t.cols, c.info.bits < 2 ^ 63) (hn : n < 2 ^ 63) (hc : t.cols.length < 2 ^ 63)
    {txt : List Byte} (hw : writeCSV t = .ok txt) (old rest : List Byte) :
    readCSV old ⟨txt ++ rest, true⟩ = .ok (⟨old, t.cols⟩, ⟨rest, true⟩) := by
  unfold writeCSV at hw
  rw [ht.rows_eq] at hw
  cases hb : writeRows t.cols n 0 with
  | error e => rw [hb] at hw; cases hw
  | ok body =>
    rw [hb, ok_bind] at hw
    cases hw
    unfold readCSV
    simp only [List.append_assoc, List.cons_append, List.nil_append]
    rw [getline_ok (decNat_not_mem (by decide))]
    simp only
    rw [parseU64_ok hc, ok_bind, getline_ok (decNat_not_mem (by decide))]
    simp only
    rw [parseU64_ok hn, ok_bind]
    obtain ⟨b1, e1⟩ := readCsvHeaders_ok (rest := body ++ rest) (buf := decNat n) hname hbits
      (fun c hc => (ht.col c hc).str)
    rw [e1, ok_bind]
    simp only
    rw [readRows_ok ht.col (by omega) hbool hb, ok_bind]
    simp only
    rw [assemble_ok ht.col]

/-- A column name with a space is written, and the file is then refused by the reader. -/
theorem C12_space_in_name :
    ∃ t txt, t.WF 1 ∧ writeCSV t = .ok txt ∧ readCSV [] ⟨txt, true⟩ = .error .throw := by
  refine ⟨⟨[], [⟨⟨[97, 32, 98], .int, 8⟩, ⟨8, 1, [[5]]⟩⟩]⟩, _, ?_, rfl, ?_⟩
  · exact ⟨by simp; exact ⟨rfl, rfl, by decide, by simp⟩, by simp, by simp, Or.inl rfl⟩
  · decide +kernel

/-- A Boolean column of two bits is written and read back with a different entry. -/
theorem C12_boolean_truncated :
    ∃ t t' txt, t.WF 1 ∧ writeCSV t = .ok txt ∧ readCSV [] ⟨txt, true⟩ = .ok (t', ⟨[], true⟩) ∧
      t.beq t' = .ok false := by
  refine ⟨⟨[], [⟨⟨[97], .boolean, 2⟩, ⟨2, 1, [[3]]⟩⟩]⟩, ⟨[], [⟨⟨[97], .boolean, 2⟩, ⟨2, 1, [[1]]⟩⟩]⟩,
    _, ?_, rfl, ?_, ?_⟩
  · exact ⟨by simp; exact ⟨rfl, rfl, by decide, by simp⟩, by simp, by simp, Or.inl rfl⟩
  · decide +kernel
  · decide +kernel

/-! ## The hypotheses are met -/

/-- An example table: a 12-bit integer column and a string column, three rows, one inactive. -/
def exTable : Table :=
  ⟨[1, 0, 1], [⟨⟨[97], .int, 12⟩, ⟨12, 2, [[1, 2], [3, 4], [255, 15]]⟩⟩,
    ⟨⟨[98, 99], .string, 16⟩, ⟨16, 2, [[65, 0], [66, 67], [0, 0]]⟩⟩]⟩

theorem exTable_wf : exTable.WF 3 := by
  refine ⟨?_, by decide, by simp [exTable], Or.inr rfl⟩
  intro c hc
  simp only [exTable, List.mem_cons, List.not_mem_nil, or_false] at hc
  rcases hc with rfl | rfl
  · exact ⟨rfl, rfl, by decide, by simp⟩
  · exact ⟨rfl, rfl, by decide, by simp⟩

theorem exTable_clean : exTable.Clean 3 := by
  intro c hc i hi k hk
  simp only [exTable, List.mem_cons, List.not_mem_nil, or_false] at hc
  rcases hc with rfl | rfl
  · by_cases h : k < 16
    · revert hi hk
      have : ∀ k < 16, 12 ≤ k → ∀ i < 3, bitOf (([[1, 2], [3, 4], [255, 15]] : List Row).getD i []) k = false := by
        decide
      exact fun hi hk => this k h hk i hi
    · apply bitOf_ge
      have : (([[1, 2], [3, 4], [255, 15]] : List Row).getD i []).length = 2 :=
        shape_getD (n := 3) (c := 2) (by decide) hi
      rw [this]; omega
  · apply bitOf_ge
    have : (([[65, 0], [66, 67], [0, 0]] : List Row).getD i []).length = 2 :=
      shape_getD (n := 3) (c := 2) (by decide) hi
    simp only at hk
    rw [this]; omega

example : ∃ r, exTable.extractActive = .ok r ∧ r.rowAt 0 = exTable.rowAt 0 ∧
    r.rowAt 1 = exTable.rowAt 2 := by
  obtain ⟨r, h, -, -, -, h2⟩ := C14_extract exTable_wf rfl
  exact ⟨r, h, h2 0, h2 1⟩

example : ∃ r, exTable.permute ⟨[2, 0, 1]⟩ .inverse = .ok r ∧ r.rowAt 2 = exTable.rowAt 0 := by
  obtain ⟨r, h, -, -, -, h2⟩ := C14_permute (p := ⟨[2, 0, 1]⟩) .inverse exTable_wf
    ((isBijection_iff _).2 ⟨by decide, by decide⟩) rfl
  exact ⟨r, h, ((h2 0 (by decide)).2 rfl).1⟩

example (rnd rndF) : ∃ s0 s1, share rnd rndF exTable = .ok (s0, s1) ∧
    reveal s0 s1 false = .ok exTable := by
  obtain ⟨s0, s1, h, -, -, -, -, -, -, -, -, h2⟩ := C09_table exTable_wf exTable_clean rnd rndF
  exact ⟨s0, s1, h, h2⟩

example : reveal exTable exTable false = .ok (joined exTable exTable 3) :=
  (C10_reveal exTable_wf exTable_wf rfl rfl (by decide)).1

example : readBin [] (writeBin exTable ++ [7]) = .ok ({ exTable with isActive := [] }, [7]) :=
  C11_roundtrip exTable_wf (by decide) (by decide) (by decide) (by decide) _ _

example : ∃ txt, writeCSV exTable = .ok txt ∧
    readCSV [] ⟨txt ++ [7], true⟩ = .ok ({ exTable with isActive := [] }, ⟨[7], true⟩) := by
  refine ⟨_, rfl, ?_⟩
  exact C12_roundtrip_partial exTable_wf (by decide) (by simp [exTable]) (by decide) (by decide) (by decide) rfl _ _

end Table
end SecJoin
