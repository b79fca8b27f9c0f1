import Verif.Table.AvgModel
import Verif.Table.JoinLemmas
/-!
# Lemmas for the plaintext average
-/
namespace SecJoin
namespace Table

/-- Sum of `v` over the positions from `k` on that have the key `κ`. -/
def grp (K : List Row) (v : Nat → Nat) (κ : Row) (k : Nat) : Nat :=
  ((List.range' k (K.length - k)).map fun q => if K.getD q [] = κ then v q else 0).sum

theorem grp_step {K : List Row} {v : Nat → Nat} {κ : Row} {k : Nat} (hk : k < K.length) :
    grp K v κ k = (if K.getD k [] = κ then v k else 0) + grp K v κ (k + 1) := by
  unfold grp
  rw [show K.length - k = (K.length - (k + 1)) + 1 by omega, List.range'_succ, List.map_cons, List.sum_cons]

theorem grp_end {K : List Row} {v : Nat → Nat} {κ : Row} {k : Nat} (hk : K.length ≤ k) :
    grp K v κ k = 0 := by
  unfold grp
  rw [show K.length - k = 0 by omega]; rfl

theorem sum_zero {l : List Nat} (h : ∀ x ∈ l, x = 0) : l.sum = 0 := by
  induction l with
  | nil => rfl
  | cons a t ih => rw [List.sum_cons, h a (by simp), ih fun x hx => h x (by simp [hx])]

theorem grp_zero {K : List Row} {v : Nat → Nat} {κ : Row} {k : Nat}
    (h : ∀ q, k ≤ q → q < K.length → K.getD q [] ≠ κ) : grp K v κ k = 0 := by
  unfold grp
  apply sum_zero
  intro x hx
  simp only [List.mem_map, List.mem_range'_1] at hx
  obtain ⟨q, hq, rfl⟩ := hx
  rw [if_neg (h q hq.1 (by omega))]

/-- The accumulators before row `k - 1`. -/
def accAt (K : List Row) (avg : List Column) (k : Nat) : Acc :=
  ⟨avg.map fun c => grp K (fun q => addend c.info.bits (c.data.rows.getD q [])) (K.getD k []) k %
      2 ^ (divCeil c.info.bits 8 * 8),
   grp K (fun _ => 1) (K.getD k []) k % 2 ^ 64⟩

theorem accAt_end {K : List Row} {avg : List Column} {k : Nat} (hk : K.length ≤ k) :
    accAt K avg k = acc0 avg := by
  unfold accAt acc0
  congr 1
  · apply List.map_congr_left
    intro c _
    rw [grp_end hk, Nat.zero_mod]
  · rw [grp_end hk]

/-- Rows with equal keys are next to each other. -/
def Grouped (K : List Row) : Prop :=
  ∀ a b c, a ≤ b → b ≤ c → c < K.length → K.getD a [] = K.getD c [] → K.getD a [] = K.getD b []

theorem accStep_ok {K : List Row} {avg : List Column} {k : Nat} (hg : Grouped K) (hk : k < K.length) :
    accStep avg k (if k + 1 < K.length ∧ rowEqB (K.getD k []) (K.getD (k + 1) []) = false then acc0 avg
      else accAt K avg (k + 1)) = accAt K avg k := by
  have main : ∀ (s : (Nat → Nat) → Nat), (∀ v, s v = grp K v (K.getD k []) (k + 1)) →
      accStep avg k ⟨avg.map fun c => s (fun q => addend c.info.bits (c.data.rows.getD q [])) %
        2 ^ (divCeil c.info.bits 8 * 8), s (fun _ => 1) % 2 ^ 64⟩ = accAt K avg k := by
    intro s hs
    unfold accStep accAt
    congr 1
    · simp only
      rw [List.zipWith_map_right, List.zipWith_self]
      apply List.map_congr_left
      intro c _
      rw [grp_step hk, if_pos rfl, hs, cirEval, Nat.mod_add_mod, Nat.add_comm]
    · simp only
      rw [grp_step hk, if_pos rfl, hs, Nat.mod_add_mod, Nat.add_comm]
  by_cases h : k + 1 < K.length ∧ rowEqB (K.getD k []) (K.getD (k + 1) []) = false
  · rw [if_pos h]
    have hne : K.getD k [] ≠ K.getD (k + 1) [] := by
      intro he
      have := h.2
      unfold rowEqB at this
      rw [he] at this
      simp at this
    have := main (fun _ => 0) (fun v => ?_)
    · rw [← this]
      unfold acc0
      congr 2
      all_goals simp
    · rw [grp_zero]
      intro q hq1 hq2 he
      exact hne (hg k (k + 1) q (by omega) hq1 hq2 he.symm)
  · rw [if_neg h]
    by_cases hl : k + 1 < K.length
    · have he : K.getD k [] = K.getD (k + 1) [] := by
        by_cases hb : rowEqB (K.getD k []) (K.getD (k + 1) []) = true
        · exact eq_of_beq hb
        · exact absurd ⟨hl, by simpa using hb⟩ h
      refine main (fun v => grp K v (K.getD (k + 1) []) (k + 1)) (fun v => ?_)
      rw [he]
    · rw [accAt_end (by omega)]
      have := main (fun _ => 0) (fun v => (grp_end (by omega)).symm)
      rw [← this]
      unfold acc0
      congr 2
      all_goals simp

/-! ## The output -/

/-- First row of a group, in sorted order. -/
def isStart (K : List Row) (d : Nat) : Prop := d = 0 ∨ K.getD (d - 1) [] ≠ K.getD d []

instance (K : List Row) (d : Nat) : Decidable (isStart K d) := inferInstanceAs (Decidable (_ ∨ _))

/-- Flag of a row of the input. -/
def inFlag (act : List Byte) (d : Nat) : Byte := if act.length > 0 then act.getD d 0 else 1

def finFlag (K : List Row) (act : List Byte) (d : Nat) : Byte :=
  if isStart K d then inFlag act d else 0

/-- Byte widths of the output columns. -/
def widths (key : Column) (avg : List Column) : List Nat :=
  divCeil key.info.bits 8 :: (avg.map (fun c => divCeil c.info.bits 8) ++ [8])

def zeroCells (key : Column) (avg : List Column) : List Row :=
  (widths key avg).map fun w => List.replicate w 0

def finCells (key : Column) (K : List Row) (avg : List Column) (act : List Byte) (d : Nat) : List Row :=
  if isStart K d ∧ inFlag act d ≠ 0 then accCells (K.getD d []) avg (accAt K avg d) else zeroCells key avg

/-- Column `j` with the cells of the rows from `lo` on. -/
def colFrom (n lo : Nat) (z : Row) (cells : Nat → List Row) (j : Nat) : List Row :=
  (List.range n).map fun d => if lo ≤ d then (cells d).getD j [] else z

def withRows' (r : List Row) (c : Column) : Column := { c with data := { c.data with rows := r } }

/-- The output with the rows from `lo` on finished. -/
def outFrom (key : Column) (K : List Row) (avg0 avg : List Column) (act : List Byte) (lo : Nat) : Table :=
  ⟨(List.range K.length).map fun d => if lo ≤ d then finFlag K act d else 0,
   (outColumns K.length key avg0).mapIdx fun j c =>
    withRows' (colFrom K.length lo (List.replicate c.data.cols 0) (finCells key K avg act) j) c⟩

theorem outColumns_get {n : Nat} {key : Column} {avg : List Column} {j : Nat}
    (h : j < (outColumns n key avg).length) :
    ∃ nm ty, (outColumns n key avg)[j] = outColumn n nm ty ((widths key avg).getD j 0) := by
  have hl : (outColumns n key avg).length = avg.length + 2 := by simp [outColumns]
  rw [hl] at h
  match j with
  | 0 => exact ⟨_, _, rfl⟩
  | j + 1 =>
    simp only [outColumns, widths, List.getElem_cons_succ, List.getD_cons_succ]
    by_cases hj : j < avg.length
    · rw [List.getElem_append_left (by simpa using hj), List.getElem_map]
      refine ⟨avg[j].info.name, avg[j].info.type, ?_⟩
      rw [List.getD_eq_getElem?_getD, List.getElem?_append_left (by simpa using hj)]
      simp only [List.getElem?_map, List.getElem?_eq_getElem hj, Option.map_some, Option.getD_some]
    · have : j = avg.length := by omega
      subst this
      rw [List.getElem_append_right (by simp)]
      simp only [List.length_map, Nat.sub_self, List.getElem_cons_zero]
      refine ⟨countName, .int, ?_⟩
      rw [List.getD_eq_getElem?_getD, List.getElem?_append_right (by simp)]
      simp

theorem setCells_eq {row : Nat} {cs : List Column} {xs : List Row} (hl : cs.length = xs.length)
    (h : ∀ j (h1 : j < cs.length) (h2 : j < xs.length), ∃ h3 : row < cs[j].data.rows.length,
      cs[j].data.rows[row].length = xs[j].length) :
    setCells row cs xs = .ok (List.zipWith (fun c x => withRows' (c.data.rows.set row x) c) cs xs) := by
  induction cs generalizing xs with
  | nil => cases xs <;> rfl
  | cons c t ih =>
    cases xs with
    | nil => simp at hl
    | cons x s =>
      obtain ⟨h3, h4⟩ := h 0 (by simp) (by simp)
      simp only [List.getElem_cons_zero] at h3 h4
      simp only [setCells, setCell]
      rw [rd_ok h3, ok_bind, h4, bne_self_eq_false, throwIf_false, ok_bind, ok_bind, ih (by simpa using hl), ok_bind]
      · rfl
      · intro j h1 h2
        have := h (j + 1) (by simpa using h1) (by simpa using h2)
        simpa using this

theorem leBytes_length (k v : Nat) : (leBytes k v).length = k := by simp [leBytes]

theorem accCells_length {key : Column} {κ : Row} {avg0 avg : List Column} {a : Acc}
    (hκ : κ.length = divCeil key.info.bits 8) (ha : a.sums.length = avg.length)
    (hw : avg.map (·.info) = avg0.map (·.info)) :
    (accCells κ avg a).map List.length = widths key avg0 := by
  unfold accCells widths
  simp only [List.map_cons, List.map_append, List.map_nil, leBytes_length, hκ]
  congr 2
  have : avg0.map (fun c => divCeil c.info.bits 8) = (avg0.map (·.info)).map (fun i => divCeil i.bits 8) := by
    rw [List.map_map]; rfl
  rw [this, ← hw, List.map_map, List.map_zipWith]
  apply List.ext_getElem
  · simp [ha]
  · intro i h1 h2
    simp [leBytes_length]

theorem map_range_set' {n i : Nat} (hi : i < n) (f g : Nat → α) (x : α) (hx : x = g i) :
    ((List.range n).map fun d => if i + 1 ≤ d then g d else f d).set i x =
      (List.range n).map fun d => if i ≤ d then g d else f d := by
  apply List.ext_getElem
  · simp
  · intro j h1 h2
    simp only [List.getElem_set, List.getElem_map, List.getElem_range]
    by_cases h : i = j
    · subst h; simp [hx]
    · rw [if_neg h]
      by_cases h3 : i + 1 ≤ j
      · rw [if_pos h3, if_pos (by omega)]
      · rw [if_neg h3, if_neg (by omega)]

theorem map_range_same' {n i : Nat} (f g : Nat → α) (h : i < n → g i = f i) :
    ((List.range n).map fun d => if i + 1 ≤ d then g d else f d) =
      (List.range n).map fun d => if i ≤ d then g d else f d := by
  apply List.map_congr_left
  intro d hd
  by_cases h1 : i + 1 ≤ d
  · rw [if_pos h1, if_pos (by omega)]
  · rw [if_neg h1]
    by_cases h2 : d = i
    · subst h2; simp [h (by simpa using hd)]
    · rw [if_neg (by omega)]

section
variable {key : Column} {K : List Row} {avg0 avg : List Column} {act : List Byte}

theorem outFrom_skip {d : Nat} (h : d < K.length → ¬ isStart K d) :
    outFrom key K avg0 avg act (d + 1) = outFrom key K avg0 avg act d ∨ avg.length ≠ avg0.length ∨
      avg.map (·.info) ≠ avg0.map (·.info) := by
  by_cases hw : avg.map (·.info) = avg0.map (·.info)
  · left
    unfold outFrom
    congr 1
    · apply map_range_same'
      intro hd
      simp [finFlag, h hd]
    · apply List.ext_getElem
      · simp
      · intro j h1 h2
        simp only [List.getElem_mapIdx]
        congr 1
        unfold colFrom
        apply map_range_same'
        intro hd
        simp only [List.length_mapIdx] at h1
        obtain ⟨nm, ty, he⟩ := outColumns_get h1
        rw [he]
        have hwid : widths key avg = widths key avg0 := by
          unfold widths
          have : ∀ l : List Column, l.map (fun c => divCeil c.info.bits 8) =
              (l.map (·.info)).map (fun i => divCeil i.bits 8) := by
            intro l; rw [List.map_map]; rfl
          rw [this, this, hw]
        have hl : (outColumns K.length key avg0).length = (widths key avg0).length := by
          simp [outColumns, widths]
        rw [hl] at h1
        simp [finCells, h hd, zeroCells, outColumn, hwid, h1]
  · right; right; exact hw

theorem copyTableEntry_ok {d : Nat} (hd : d < K.length) (hs : isStart K d)
    (hact : act.length > 0 → act.length = K.length)
    (hK : ∀ r ∈ K, r.length = divCeil key.info.bits 8)
    (hw : avg.map (·.info) = avg0.map (·.info)) :
    copyTableEntry (outFrom key K avg0 avg act (d + 1)) K avg (accAt K avg d) act d =
      .ok (outFrom key K avg0 avg act d) := by
  have hwid : widths key avg = widths key avg0 := by
    unfold widths
    have : ∀ l : List Column, l.map (fun c => divCeil c.info.bits 8) =
        (l.map (·.info)).map (fun i => divCeil i.bits 8) := by
      intro l; rw [List.map_map]; rfl
    rw [this, this, hw]
  have hf : (if act.length > 0 then rd act d else .ok 1 : Res Byte) = .ok (inFlag act d) := by
    unfold inFlag
    by_cases h : act.length > 0
    · rw [if_pos h, if_pos h, rd_ok (by rw [hact h]; exact hd), getD_eq_getElem' _ (by rw [hact h]; exact hd)]
    · rw [if_neg h, if_neg h]
  have hfl : (outFrom key K avg0 avg act (d + 1)).isActive.set d (inFlag act d) =
      (outFrom key K avg0 avg act d).isActive := by
    unfold outFrom
    simp only
    apply map_range_set' hd
    simp [finFlag, hs]
  unfold copyTableEntry
  rw [hf, ok_bind, wr_ok (by simp [outFrom, hd]), ok_bind, hfl]
  have hl : (outColumns K.length key avg0).length = (widths key avg0).length := by
    simp [outColumns, widths]
  by_cases h0 : inFlag act d = 0
  · rw [if_pos h0]
    congr 1
    unfold outFrom
    congr 1
    apply List.ext_getElem
    · simp
    · intro j h1 h2
      simp only [List.getElem_mapIdx]
      congr 1
      unfold colFrom
      apply map_range_same'
      intro hd
      simp only [List.length_mapIdx] at h1
      obtain ⟨nm, ty, he⟩ := outColumns_get h1
      rw [he]
      rw [hl] at h1
      simp [finCells, h0, zeroCells, outColumn, hwid, h1]
  · rw [if_neg h0, rd_ok hd, ok_bind]
    have hcl := accCells_length (key := key) (κ := K[d]) (avg0 := avg0) (a := accAt K avg d)
      (hK _ (List.getElem_mem hd)) (by simp [accAt]) hw
    have hcl' : (accCells K[d] avg (accAt K avg d)).length = (widths key avg0).length := by
      rw [← hcl, List.length_map]
    have hcols : (outFrom key K avg0 avg act (d + 1)).cols.length = (widths key avg0).length := by
      simp [outFrom, hl]
    have hcell : ∀ j (h1 : j < (widths key avg0).length),
        ((accCells K[d] avg (accAt K avg d))[j]'(by rw [hcl']; exact h1)).length = (widths key avg0)[j] := by
      intro j h1
      have := List.getElem_map (f := List.length) (l := accCells K[d] avg (accAt K avg d)) (i := j)
        (h := by rw [hcl]; exact h1)
      rw [← this]
      congr 1
    rw [setCells_eq (by rw [hcols, hcl'])]
    · rw [ok_bind]
      congr 1
      unfold outFrom
      congr 1
      apply List.ext_getElem
      · simp [hl, hcl']
      · intro j h1 h2
        simp only [List.length_mapIdx] at h2
        have h3 := h2
        rw [hl] at h3
        simp only [List.getElem_zipWith, List.getElem_mapIdx, withRows']
        congr 2
        unfold colFrom
        apply map_range_set' hd
        have : finCells key K avg act d = accCells K[d] avg (accAt K avg d) := by
          rw [finCells, if_pos ⟨hs, h0⟩, getD_eq_getElem' [] hd]
        rw [this, getD_eq_getElem' [] (by rw [hcl']; exact h3)]
    · intro j h1 h2
      rw [hcols] at h1
      have h3 : j < (outColumns K.length key avg0).length := by rw [hl]; exact h1
      obtain ⟨nm, ty, he⟩ := outColumns_get h3
      simp only [outFrom, List.getElem_mapIdx, withRows', colFrom, List.length_map, List.length_range,
        List.getElem_map, List.getElem_range]
      refine ⟨hd, ?_⟩
      rw [if_neg (by omega), List.length_replicate, he, hcell j h1]
      simp [outColumn, h1]

theorem avgLoop_ok (hg : Grouped K) (hact : act.length > 0 → act.length = K.length)
    (hK : ∀ r ∈ K, r.length = divCeil key.info.bits 8)
    (hw : avg.map (·.info) = avg0.map (·.info)) (j : Nat) (hj : j ≤ K.length) :
    avgLoop K avg act j (accAt K avg j) (outFrom key K avg0 avg act (if j = 0 then 0 else j + 1)) =
      .ok (outFrom key K avg0 avg act 0) := by
  induction j with
  | zero => rfl
  | succ k ih =>
    have hk : k < K.length := by omega
    simp only [avgLoop]
    rw [if_neg (show ¬ k + 1 = 0 by omega)]
    have hstep : (if k + 1 < K.length ∧ rowEqB (K.getD k []) (K.getD (k + 1) []) = false then do
          let out ← copyTableEntry (outFrom key K avg0 avg act (k + 1 + 1)) K avg (accAt K avg (k + 1)) act (k + 1)
          .ok (acc0 avg, out)
        else .ok (accAt K avg (k + 1), outFrom key K avg0 avg act (k + 1 + 1)) : Res (Acc × Table)) =
        .ok (if k + 1 < K.length ∧ rowEqB (K.getD k []) (K.getD (k + 1) []) = false then acc0 avg
          else accAt K avg (k + 1), outFrom key K avg0 avg act (k + 1)) := by
      by_cases h : k + 1 < K.length ∧ rowEqB (K.getD k []) (K.getD (k + 1) []) = false
      · rw [if_pos h, if_pos h, copyTableEntry_ok h.1 ?_ hact hK hw, ok_bind]
        right
        intro he
        have := h.2
        unfold rowEqB at this
        rw [Nat.add_sub_cancel] at he
        rw [he] at this
        simp at this
      · rw [if_neg h, if_neg h]
        have hns : k + 1 < K.length → ¬ isStart K (k + 1) := by
          intro hl hs
          apply h
          refine ⟨hl, ?_⟩
          rcases hs with hs | hs
          · omega
          · rw [Nat.add_sub_cancel] at hs
            simpa [rowEqB] using hs
        rcases outFrom_skip (key := key) (avg0 := avg0) (avg := avg) (act := act) hns with h1 | h1 | h1
        · rw [h1]
        · exact absurd (by simpa using congrArg List.length hw) h1
        · exact absurd hw h1
    rw [hstep, ok_bind]
    simp only
    rw [accStep_ok hg hk]
    by_cases h0 : k = 0
    · subst h0
      rw [if_pos rfl, copyTableEntry_ok hk (Or.inl rfl) hact hK hw, ok_bind]
      exact ih (by omega)
    · rw [if_neg h0, ok_bind]
      have := ih (by omega)
      rw [if_neg h0] at this
      exact this

end

end Table
end SecJoin
