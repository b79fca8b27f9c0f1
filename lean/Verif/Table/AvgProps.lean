import Verif.Table.AvgLemmas
import Verif.Table.JoinProps
/-!
# C18: the plaintext group-by average
-/
namespace SecJoin
namespace Table

/-- The rows with the same key as row `i`. -/
def groupOf (key : Column) (n i : Nat) : List Nat :=
  (List.range n).filter fun j => key.data.rows.getD j [] == key.data.rows.getD i []

/-- `i` is the first row of its group. -/
def FirstOf (key : Column) (i : Nat) : Prop := ∀ j < i, key.data.rows.getD j [] ≠ key.data.rows.getD i []

/-- The output row of a group: the key, the sum of every column over the given rows modulo its width,
and the number of rows. -/
def groupRow (key : Column) (avg : List Column) (i : Nat) (rows : List Nat) : List (Option Row) :=
  some (key.data.rows.getD i []) ::
    (avg.map (fun c => some (leBytes (divCeil c.info.bits 8)
        ((rows.map fun j => leValue (c.data.rows.getD j [])).sum % 2 ^ c.info.bits))) ++
      [some (leBytes 8 (rows.length % 2 ^ 64))])

theorem addend_eq {bits : Nat} {r : Row} (hb : bits % 8 = 0) (hr : r.length = divCeil bits 8) :
    addend bits r = leValue r := by
  have h8 : divCeil bits 8 * 8 = bits := by unfold divCeil; omega
  unfold addend
  have h := bytesNat_lt r
  rw [hr, show (256 : Nat) = 2 ^ 8 from rfl, ← Nat.pow_mul, Nat.mul_comm, h8] at h
  rw [h8, Nat.sub_self, Nat.pow_zero, Nat.mul_one, Nat.mod_eq_of_lt h, leValue_eq]

theorem sum_if_filter (l : List Nat) (P : Nat → Bool) (f : Nat → Nat) :
    (l.map fun j => if P j = true then f j else 0).sum = ((l.filter P).map f).sum := by
  induction l with
  | nil => rfl
  | cons a t ih =>
    rw [List.map_cons, List.sum_cons, ih, List.filter_cons]
    by_cases h : P a = true
    · rw [if_pos h, if_pos h, List.map_cons, List.sum_cons]
    · rw [if_neg h, if_neg h, Nat.zero_add]

theorem permuteBytes_ok {p : Perm} {op : PermOp} {c : Column} {n w : Nat} (hp : IsPermList p.pi)
    (hn : p.pi.length = n) (hc : c.data.cols = w) (hr : c.data.rows.length = n) :
    permuteBytes p op c = .ok { c with data := ⟨w * 8, w, moved p op c.data.rows⟩ } := by
  unfold permuteBytes
  rw [apply_moved hp (by rw [Perm.size, hn]; exact hr) (by simp [Perm.size, hn, hr]) (by rfl), ok_bind, hc]
  rfl

theorem getElem?_inv {p : List Nat} (hp : IsPermList p) {x : List α} (hx : x.length = p.length) {r : Nat}
    (hr : r < p.length) : (gather (invList p) x)[p[r]]? = x[r]? := by
  have hpi := invList_isPerm hp
  rw [gather_getElem? (by rw [hx, ← invList_length p]; exact hpi.1),
    invList_getElem? (hp.1 _ (List.getElem_mem hr)), idxOf_getElem' hp.2 hr]
  rfl

/-- The result of `average`, for columns whose width is a multiple of 8: one row per group, at the
position of the first row of the group. Its flag is the flag of that first row and its sums and count
are taken over all rows of the group, active or not. All other rows are inactive. What is missing:
inactive rows should not be counted (see `C18_inactive_counted`), and widths that are not a multiple
of 8 (see `C18_width_shifted`). -/
theorem C18_average_partial {key : Column} {avg : List Column} {act : List Byte} {n : Nat}
    (hk : key.WF n) (ha : ∀ c ∈ avg, c.WF n) (h8 : ∀ c ∈ avg, c.info.bits % 8 = 0)
    (hact : act = [] ∨ act.length = n) :
    ∃ t, average key avg act = .ok t ∧ t.isActive.length = n ∧
      t.getColumnInfo = ⟨key.info.name, key.info.type, divCeil key.info.bits 8 * 8⟩ ::
        (avg.map (fun c => ⟨c.info.name, c.info.type, divCeil c.info.bits 8 * 8⟩) ++ [⟨[67, 111, 117, 110, 116], .int, 64⟩]) ∧
      ∀ i < n,
        (FirstOf key i → t.isActive[i]? = some (if act = [] then 1 else act.getD i 0) ∧
          ((if act = [] then (1 : Byte) else act.getD i 0) ≠ 0 →
            t.rowAt i = groupRow key avg i (groupOf key n i))) ∧
        (¬ FirstOf key i → t.isActive[i]? = some 0) := by
  obtain ⟨p1, p2, p3⟩ := plainSort_spec hk.shape
  generalize hp : plainSort key.data.rows = p at p1 p2 p3
  have hb : ∀ {α : Type} {x : List α}, x.length = n → ∀ a ∈ p, a < x.length := by
    intro α x hx; rw [hx, ← p2]; exact p1.1
  -- the sorted keys and columns
  let K := gather p key.data.rows
  let avg' : List Column := avg.map fun c =>
    { c with data := ⟨divCeil c.info.bits 8 * 8, divCeil c.info.bits 8, gather p c.data.rows⟩ }
  let act' : List Byte := gather p act
  have hKl : K.length = n := by rw [gather_length (hb hk.shape.1), p2]
  have hact' : act'.length > 0 → act'.length = K.length := by
    intro h
    rcases hact with h1 | h1
    · simp [act', h1, gather] at h
    · simp only [act']; rw [hKl, gather_length (hb h1), p2]
  have hK : ∀ r ∈ K, r.length = divCeil key.info.bits 8 := fun r hr => hk.shape.2 r (mem_gather hr)
  have hw : avg'.map (·.info) = avg.map (·.info) := by simp [avg']
  have hKget : ∀ q (hq : q < p.length), K.getD q [] = key.data.rows.getD p[q] [] := by
    intro q hq
    exact gather_getD (hb hk.shape.1) hq
  have hlen : ∀ j < n, (key.data.rows.getD j []).length = divCeil key.info.bits 8 :=
    fun j hj => shape_getD hk.shape hj
  have plt : ∀ q (hq : q < p.length), p[q] < n := by
    intro q hq; rw [← p2]; exact p1.1 _ (List.getElem_mem hq)
  rw [List.pairwise_iff_getElem] at p3
  have hmono : ∀ a b (h1 : a < p.length) (h2 : b < p.length), a ≤ b →
      bytesNat (K.getD a []) ≤ bytesNat (K.getD b []) := by
    intro a b h1 h2 hab
    rw [hKget a h1, hKget b h2]
    rcases Nat.lt_or_eq_of_le hab with h | h
    · have := p3 a b h1 h2 h
      unfold KeyOrder rowKey at this
      omega
    · subst h; exact Nat.le_refl _
  have hg : Grouped K := by
    intro a b c hab hbc hc he
    rw [hKl, ← p2] at hc
    have h1 := hmono a b (by omega) (by omega) hab
    have h2 := hmono b c (by omega) hc hbc
    rw [← he] at h2
    apply bytesNat_inj
    · rw [hKget a (by omega), hKget b (by omega), hlen _ (plt a (by omega)), hlen _ (plt b (by omega))]
    · omega
  have hloop := avgLoop_ok (key := key) (avg0 := avg) (avg := avg') (act := act') hg hact' hK hw n (by omega)
  let out := outFrom key K avg avg' act' 0
  have hres : average key avg act = .ok ⟨gather (invList p) out.isActive,
      out.cols.map fun c => { c with data := ⟨c.data.cols * 8, c.data.cols, gather (invList p) c.data.rows⟩ }⟩ := by
    unfold average
    simp only
    rw [hp, permuteBytes_ok (p := ⟨p⟩) (op := .regular) p1 p2 hk.cols hk.shape.1, ok_bind]
    have e1 : (if act.length > 0 then (⟨p⟩ : Perm).applyVec 0 act .regular else .ok act : Res (List Byte)) =
        .ok act' := by
      rcases hact with h | h
      · rw [if_neg (by simp [h])]
        simp [act', h, gather]
      · by_cases h0 : act.length > 0
        · rw [if_pos h0, applyVec_moved (p := ⟨p⟩) p1 (by rw [h]; exact p2.symm)]; rfl
        · have : act = [] := by simpa using h0
          rw [if_neg h0]
          simp [act', this, gather]
    rw [e1, ok_bind, mapRes_ok (g := fun c => { c with data := ⟨divCeil c.info.bits 8 * 8,
        divCeil c.info.bits 8, gather p c.data.rows⟩ })
      (fun c hc => permuteBytes_ok (p := ⟨p⟩) (op := .regular) p1 p2 (ha c hc).cols (ha c hc).shape.1), ok_bind]
    simp only
    have e2 : (⟨List.replicate key.data.rows.length 0, outColumns key.data.rows.length key avg⟩ : Table) =
        outFrom key K avg avg' act' (if n = 0 then 0 else n + 1) := by
      rw [hk.shape.1]
      unfold outFrom
      rw [hKl]
      congr 1
      · apply List.ext_getElem
        · simp
        · intro i h1 h2
          have : i < n := by simpa using h1
          simp only [List.getElem_replicate, List.getElem_map, List.getElem_range]
          rw [if_neg (by split <;> omega)]
      · apply List.ext_getElem
        · simp
        · intro j h1 h2
          obtain ⟨nm, ty, he⟩ := outColumns_get h1
          simp only [List.getElem_mapIdx]
          rw [he]
          unfold withRows' outColumn colFrom
          simp only
          congr 2
          apply List.ext_getElem
          · simp
          · intro i h1 h2
            have : i < n := by simpa using h1
            simp only [List.getElem_replicate, List.getElem_map, List.getElem_range]
            rw [if_neg (by split <;> omega)]
    have e3 : acc0 avg = accAt K avg' n := by
      rw [accAt_end (by omega)]
      simp only [acc0, avg', List.map_map, Function.comp_def]
    rw [e2, e3, hk.shape.1]
    simp only [moved]
    rw [hloop, ok_bind]
    have hcl : ∀ c ∈ out.cols, c.data.rows.length = n := by
      intro c hc
      simp only [out, outFrom] at hc
      obtain ⟨j, hj, rfl⟩ := List.getElem_of_mem hc
      simp [withRows', colFrom, hKl]
    rw [mapRes_ok (g := fun c => { c with data := ⟨c.data.cols * 8, c.data.cols, gather (invList p) c.data.rows⟩ })
      (fun c hc => permuteBytes_ok (p := ⟨p⟩) (op := .inverse) p1 p2 rfl (hcl c hc)), ok_bind,
      applyVec_moved (p := ⟨p⟩) (op := .inverse) p1 (by simp [outFrom, hKl, Perm.size, p2]), ok_bind]
    rfl
  have hfl : out.isActive.length = n := by simp [out, outFrom, hKl]
  refine ⟨_, hres, ?_, ?_, ?_⟩
  rotate_left
  · have : ∀ l : List Column, ∀ f : Nat → Column → Column, (∀ j c, (f j c).info = c.info) → (l.mapIdx f).map (·.info) = l.map (·.info) := by
      intro l f hf
      apply List.ext_getElem
      · simp
      · intro j h1 h2; simp [hf]
    simp only [getColumnInfo, out, outFrom, List.map_map, Function.comp_def]
    rw [this]
    · simp [outColumns, outColumn, countName]
    · intro j c; rfl
  rotate_left
  · rw [gather_length (by rw [hfl, ← p2, ← invList_length p]; exact (invList_isPerm p1).1), invList_length, p2]
  intro i hi
  obtain ⟨r, hr, hri⟩ := List.getElem_of_mem (p1.mem (show i < p.length by rw [p2]; exact hi))
  have hrn : r < n := by rw [← p2]; exact hr
  subst hri
  have hKr := hKget r hr
  -- first row of the group
  have hstart : isStart K r ↔ FirstOf key p[r] := by
    constructor
    · intro hs j hj he
      obtain ⟨s, hs', rfl⟩ := List.getElem_of_mem (p1.mem (show j < p.length by omega))
      have hsr : s < r := by
        rcases Nat.lt_trichotomy s r with h | h | h
        · exact h
        · subst h; omega
        · exfalso
          have := p3 r s hr hs' h
          unfold KeyOrder rowKey at this
          rw [he] at this
          omega
      rcases hs with h0 | hne
      · omega
      · apply hne
        have := hg s (r - 1) r (by omega) (by omega) (by omega) (by rw [hKget s hs', hKr, he])
        rw [← this, hKget s hs', hKr, he]
    · intro hf
      by_cases h0 : r = 0
      · exact Or.inl h0
      · right
        intro he
        have := p3 (r - 1) r (by omega) hr (by omega)
        rw [hKget (r - 1) (by omega), hKr] at he
        unfold KeyOrder rowKey at this
        rw [he] at this
        refine hf p[r - 1] (by omega) he
  have hflag : (gather (invList p) out.isActive)[p[r]]? = some (finFlag K act' r) := by
    rw [getElem?_inv p1 (by rw [hfl, p2]) hr]
    simp [out, outFrom, hKl, hrn]
  have hinf : inFlag act' r = if act = [] then 1 else act.getD p[r] 0 := by
    unfold inFlag
    rcases hact with h | h
    · rw [if_neg (by simp [act', h, gather]), if_pos h]
    · have hne : act ≠ [] := by intro h0; rw [h0] at h; simp at h; omega
      have hal : act'.length = n := by simp only [act']; rw [gather_length (hb h), p2]
      rw [if_neg hne, if_pos (by omega)]
      simp only [act']
      rw [List.getD_eq_getElem?_getD, List.getD_eq_getElem?_getD, gather_getElem? (hb h), List.getElem?_eq_getElem hr]
      rfl
  have hgrp : ∀ (v : Nat → Nat) (v' : Nat → Nat), (∀ q (hq : q < p.length), v q = v' p[q]) → FirstOf key p[r] →
      grp K v (K.getD r []) r = ((groupOf key n p[r]).map v').sum := by
    intro v v' hv hf
    have hs := hstart.2 hf
    have e1 : grp K v (K.getD r []) r = ((List.range n).map fun q => if K.getD q [] = K.getD r [] then v q else 0).sum := by
      have h := List.range'_append_1 (s := 0) (m := r) (n := n - r)
      rw [Nat.zero_add, show r + (n - r) = n by omega] at h
      rw [List.range_eq_range', ← h, List.map_append, List.sum_append]
      unfold grp
      rw [hKl]
      rw [sum_zero (l := (List.range' 0 r).map fun q => if K.getD q [] = K.getD r [] then v q else 0), Nat.zero_add]
      intro x hx
      simp only [List.mem_map, List.mem_range'_1] at hx
      obtain ⟨q, hq, rfl⟩ := hx
      rw [if_neg]
      intro he
      rcases hs with h0 | hne
      · omega
      · apply hne
        have := hg q (r - 1) r (by omega) (by omega) (by omega) he
        rw [← this, he]
    rw [e1]
    have e2 : ((List.range n).map fun q => if K.getD q [] = K.getD r [] then v q else 0) =
        p.map fun j => if (key.data.rows.getD j [] == key.data.rows.getD p[r] []) = true then v' j else 0 := by
      apply List.ext_getElem
      · simp [p2]
      · intro q h1 h2
        have hq : q < p.length := by simpa using h2
        simp only [List.getElem_map, List.getElem_range]
        rw [hKget q hq, hKr, hv q hq]
        simp
    unfold groupOf
    rw [e2, ← sum_if_filter]
    apply List.Perm.sum_nat
    apply List.Perm.map
    have := isPermList_iff_perm.1 p1
    rw [p2] at this
    exact this
  refine ⟨fun hf => ⟨?_, ?_⟩, fun hf => ?_⟩
  · rw [hflag, finFlag, if_pos (hstart.2 hf), hinf]
  · intro hne
    have hcells : finCells key K avg' act' r = accCells (K.getD r []) avg' (accAt K avg' r) := by
      rw [finCells, if_pos ⟨hstart.2 hf, by rw [hinf]; exact hne⟩]
    have hcl := accCells_length (key := key) (κ := K.getD r []) (avg0 := avg) (avg := avg') (a := accAt K avg' r)
      (by rw [hKr]; exact hlen _ (plt r hr)) (by simp [accAt]) hw
    have hrow : Table.rowAt ⟨gather (invList p) out.isActive, out.cols.map fun c => { c with data :=
        ⟨c.data.cols * 8, c.data.cols, gather (invList p) c.data.rows⟩ }⟩ p[r] =
        (accCells (K.getD r []) avg' (accAt K avg' r)).map some := by
      simp only [rowAt, List.map_map]
      apply List.ext_getElem
      · have : (accCells (K.getD r []) avg' (accAt K avg' r)).length = (widths key avg).length := by
          rw [← hcl, List.length_map]
        simp only [List.length_map, this]
        simp [out, outFrom, outColumns, widths]
      · intro j h1 h2
        simp only [List.length_map] at h1 h2
        simp only [List.getElem_map, Function.comp]
        have hx : (out.cols[j]).data.rows.length = n := by
          simp [out, outFrom, withRows', colFrom, hKl]
        rw [getElem?_inv p1 (by rw [hx, p2]) hr]
        simp only [out, outFrom, List.getElem_mapIdx, withRows', colFrom]
        rw [List.getElem?_map, List.getElem?_range (by rw [hKl]; exact hrn)]
        simp only [Option.map_some, Nat.zero_le, if_true, Option.some.injEq]
        rw [hcells, getD_eq_getElem' [] h2]
    rw [hrow]
    unfold accCells groupRow
    simp only [List.map_cons, List.map_append, List.map_nil]
    rw [hKr]
    congr 2
    · simp only [accAt, avg', List.map_map]
      rw [List.zipWith_map_left, List.zipWith_map_right, List.zipWith_self, List.map_map]
      apply List.map_congr_left
      intro c hc
      have hcw := ha c hc
      have h8c := h8 c hc
      simp only [Function.comp]
      have hd8 : divCeil c.info.bits 8 * 8 = c.info.bits := by unfold divCeil; omega
      rw [hgrp _ (fun j => leValue (c.data.rows.getD j [])) ?_ hf, hd8]
      intro q hq
      rw [gather_getD (hb hcw.shape.1) hq, addend_eq h8c (shape_getD hcw.shape (plt q hq))]
    · simp only [accAt]
      rw [hgrp _ (fun _ => 1) (fun _ _ => rfl) hf]
      congr 4
      simp
  · rw [hflag, finFlag, if_neg (fun h => hf (hstart.1 h))]

/-- If all rows are active, the sums and the count are those of the active rows of the group. -/
theorem C18_all_active_partial {key : Column} {avg : List Column} {act : List Byte} {n : Nat}
    (hk : key.WF n) (ha : ∀ c ∈ avg, c.WF n) (h8 : ∀ c ∈ avg, c.info.bits % 8 = 0)
    (hact : act.length = n) (hall : ∀ i < n, act.getD i 0 = 1) :
    ∃ t, average key avg act = .ok t ∧
      ∀ i < n,
        (FirstOf key i → t.isActive[i]? = some 1 ∧
          t.rowAt i = groupRow key avg i ((groupOf key n i).filter fun j => act.getD j 0 == 1)) ∧
        (¬ FirstOf key i → t.isActive[i]? = some 0) := by
  obtain ⟨t, h1, -, -, h2⟩ := C18_average_partial hk ha h8 (Or.inr hact)
  refine ⟨t, h1, fun i hi => ⟨fun hf => ?_, (h2 i hi).2⟩⟩
  have hne : act ≠ [] := by intro h; rw [h] at hact; simp at hact; omega
  have := (h2 i hi).1 hf
  rw [if_neg hne, hall i hi] at this
  refine ⟨this.1, ?_⟩
  rw [this.2 (by decide), List.filter_eq_self.2]
  intro j hj
  simp only [groupOf, List.mem_filter, List.mem_range] at hj
  rw [hall j hj.1]
  rfl

theorem sort_two (a : Byte) : plainSort [[a], [a]] = [0, 1] :=
  plainSort_eq (n := 2) (c := 1) ⟨rfl, by simp⟩ ⟨by decide, by decide⟩ rfl (by simp [KeyOrder, rowKey])

/-- An inactive row is counted and added: two rows of one group, the second inactive. -/
theorem C18_inactive_counted :
    ∃ t, average ⟨⟨[97], .int, 8⟩, ⟨8, 1, [[5], [5]]⟩⟩ [⟨⟨[98], .int, 8⟩, ⟨8, 1, [[1], [2]]⟩⟩] [1, 0] = .ok t ∧
      t.isActive = [1, 0] ∧ t.rowAt 0 = [some [5], some [3], some [2, 0, 0, 0, 0, 0, 0, 0]] := by
  refine ⟨⟨[1, 0], [⟨⟨[97], .int, 8⟩, ⟨8, 1, [[5], [0]]⟩⟩, ⟨⟨[98], .int, 8⟩, ⟨8, 1, [[3], [0]]⟩⟩,
    ⟨⟨countName, .int, 64⟩, ⟨64, 8, [[2, 0, 0, 0, 0, 0, 0, 0], [0, 0, 0, 0, 0, 0, 0, 0]]⟩⟩]⟩, ?_, rfl, by decide⟩
  simp only [average, sort_two]
  decide +kernel

/-- A group whose first row is inactive disappears although it has an active row. -/
theorem C18_active_group_lost :
    ∃ t, average ⟨⟨[97], .int, 8⟩, ⟨8, 1, [[5], [5]]⟩⟩ [⟨⟨[98], .int, 8⟩, ⟨8, 1, [[1], [2]]⟩⟩] [0, 1] = .ok t ∧
      t.isActive = [0, 0] := by
  refine ⟨⟨[0, 0], [⟨⟨[97], .int, 8⟩, ⟨8, 1, [[0], [0]]⟩⟩, ⟨⟨[98], .int, 8⟩, ⟨8, 1, [[0], [0]]⟩⟩,
    ⟨⟨countName, .int, 64⟩, ⟨64, 8, [[0, 0, 0, 0, 0, 0, 0, 0], [0, 0, 0, 0, 0, 0, 0, 0]]⟩⟩]⟩, ?_, rfl⟩
  simp only [average, sort_two]
  decide +kernel

/-- For a width that is not a multiple of 8 the sums are shifted: 1 + 2 in 4 bits gives 48. -/
theorem C18_width_shifted :
    ∃ t, average ⟨⟨[97], .int, 8⟩, ⟨8, 1, [[5], [5]]⟩⟩ [⟨⟨[98], .int, 4⟩, ⟨4, 1, [[1], [2]]⟩⟩] [] = .ok t ∧
      t.rowAt 0 = [some [5], some [48], some [2, 0, 0, 0, 0, 0, 0, 0]] := by
  refine ⟨⟨[1, 0], [⟨⟨[97], .int, 8⟩, ⟨8, 1, [[5], [0]]⟩⟩, ⟨⟨[98], .int, 8⟩, ⟨8, 1, [[48], [0]]⟩⟩,
    ⟨⟨countName, .int, 64⟩, ⟨64, 8, [[2, 0, 0, 0, 0, 0, 0, 0], [0, 0, 0, 0, 0, 0, 0, 0]]⟩⟩]⟩, ?_, by decide⟩
  simp only [average, sort_two]
  decide +kernel

/-! ## The hypotheses are met -/

example : ∃ t, average exR [exR] [1, 1, 1, 1] = .ok t ∧ t.isActive[3]? = some 0 := by
  obtain ⟨t, h1, h2⟩ := C18_all_active_partial (key := exR) (avg := [exR]) (act := [1, 1, 1, 1]) (n := 4)
    ⟨rfl, rfl, by decide, by simp [exR]⟩
    (by intro c hc; simp only [List.mem_singleton] at hc; subst hc; exact ⟨rfl, rfl, by decide, by simp [exR]⟩)
    (by decide) rfl (by decide)
  refine ⟨t, h1, (h2 3 (by decide)).2 ?_⟩
  intro h
  exact h 0 (by decide) rfl

end Table
end SecJoin
