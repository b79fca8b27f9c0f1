import Verif.Util.Props
import Verif.Perm.Props
import Verif.Table.Model
/-!
# Lemmas for plaintext tables: extraction, permutation, sharing and revealing
-/
namespace SecJoin

/-- The rows whose flag is one, in order. -/
def keep (flags : List Byte) (rows : List α) : List α :=
  ((flags.zip rows).filter (fun p => p.1 == 1)).map Prod.snd

theorem keep_nil_left (rows : List α) : keep [] rows = [] := rfl

theorem keep_cons (f : Byte) (fs : List Byte) (r : α) (rs : List α) :
    keep (f :: fs) (r :: rs) = if f = 1 then r :: keep fs rs else keep fs rs := by
  simp only [keep, List.zip_cons_cons, List.filter_cons, beq_iff_eq]
  split <;> simp

theorem keep_append {f1 f2 : List Byte} {r1 r2 : List α} (h : f1.length = r1.length) :
    keep (f1 ++ f2) (r1 ++ r2) = keep f1 r1 ++ keep f2 r2 := by
  simp [keep, List.zip_append h]

theorem keep_zeros (n : Nat) (rows : List α) : keep (List.replicate n 0) rows = [] := by
  simp only [keep, List.map_eq_nil_iff, List.filter_eq_nil_iff, beq_iff_eq]
  intro a ha
  have := List.of_mem_zip (show (a.1, a.2) ∈ _ from ha)
  have := (List.mem_replicate.1 this.1).2
  rw [this]; decide

theorem keep_ones (rows : List α) : keep (List.replicate rows.length 1) rows = rows := by
  induction rows with
  | nil => rfl
  | cons a t ih => rw [List.length_cons, List.replicate_succ, keep_cons, if_pos rfl, ih]

/-- Well-formed column of `n` rows. -/
structure Column.WF (c : Column) (n : Nat) : Prop where
  bits : c.data.bits = c.info.bits
  cols : c.data.cols = divCeil c.info.bits 8
  shape : Shape n (divCeil c.info.bits 8) c.data.rows
  str : c.info.type = .string → c.info.bits % 8 = 0

/-- Well-formed table of `n` rows: what `Table::init` sets up, with data and flags of any content. -/
structure Table.WF (t : Table) (n : Nat) : Prop where
  col : ∀ c ∈ t.cols, c.WF n
  names : (t.cols.map (·.info.name)).Nodup
  empty : t.cols = [] → n = 0
  flags : t.isActive = [] ∨ t.isActive.length = n

namespace Table

theorem WF.rows_eq {t : Table} {n : Nat} (h : t.WF n) : t.rows = n := by
  unfold rows
  match hc : t.cols with
  | [] => exact (h.empty hc).symm
  | c :: l => exact (h.col c (by rw [hc]; simp)).shape.1

/-! ## extractActive -/

/-- Effect of the loop of `extractActive` on the rows of one column. -/
def compact (flags : List Byte) : Nat → Nat → Nat → List Row → List Row
  | 0, _, _, R => R
  | k + 1, i, cur, R =>
    if flags.getD i 0 = 1 then compact flags k (i + 1) (cur + 1) (R.set cur (R.getD i []))
    else compact flags k (i + 1) cur R

/-- Number of ones among the flags `i .. i+k-1`. -/
def ones (flags : List Byte) : Nat → Nat → Nat
  | 0, _ => 0
  | k + 1, i => (if flags.getD i 0 = 1 then 1 else 0) + ones flags k (i + 1)

/-- Replace the rows of a column. -/
def withRows (f : List Row → List Row) (c : Column) : Column :=
  { c with data := { c.data with rows := f c.data.rows } }

theorem set_self {l : List α} {i : Nat} (d : α) : l.set i (l.getD i d) = l := by
  by_cases h : i < l.length
  · rw [List.getD_eq_getElem?_getD, List.getElem?_eq_getElem h]
    simp
  · rw [List.set_eq_of_length_le (by omega)]

theorem extractLoop_eq (flags : List Byte) (k i cur : Nat) (cols : List Column) (hc : cur ≤ i)
    (hf : i + k ≤ flags.length) (hr : ∀ c ∈ cols, i + k ≤ c.data.rows.length) :
    extractLoop flags k i cur cols =
      .ok (cur + ones flags k i, cols.map (withRows (compact flags k i cur))) := by
  induction k generalizing i cur cols with
  | zero =>
    simp only [extractLoop, ones, Nat.add_zero]
    congr 2
    conv_lhs => rw [← List.map_id cols]
    rfl
  | succ k ih =>
    simp only [extractLoop, ones, compact]
    have hg : flags.getD i 0 = flags[i]'(by omega) := by
      rw [List.getD_eq_getElem?_getD, List.getElem?_eq_getElem (by omega)]; rfl
    rw [rd_ok (show i < flags.length by omega), ok_bind, hg]
    by_cases h1 : flags[i]'(by omega) = 1
    · simp only [h1, if_true]
      have hcopy : mapRes (fun c => copyRow c cur i) cols =
          .ok (cols.map (withRows (fun R => R.set cur (R.getD i [])))) := by
        apply mapRes_ok
        intro c hcm
        have := hr c hcm
        rw [copyRow, rd_ok (by omega), ok_bind, wr_ok (by omega), ok_bind]
        simp only [withRows, List.getD_eq_getElem?_getD]
        rw [List.getElem?_eq_getElem (show i < c.data.rows.length by omega)]
        rfl
      by_cases h2 : cur ≠ i
      · rw [if_pos h2, hcopy, ok_bind, ih (i + 1) (cur + 1) _ (by omega) (by omega) ?_]
        · rw [List.map_map, Nat.add_assoc]
          rfl
        · intro c hcm
          obtain ⟨c', hc', rfl⟩ := List.mem_map.1 hcm
          have := hr c' hc'
          simp only [withRows, List.length_set]; omega
      · rw [if_neg h2, ih (i + 1) (cur + 1) _ (by omega) (by omega)
          (fun c hcm => by have := hr c hcm; omega), Nat.add_assoc]
        congr 2
        apply List.map_congr_left
        intro c hcm
        simp only [withRows]
        have : cur = i := by omega
        rw [this, set_self]
    · simp only [h1, if_false]
      rw [ih (i + 1) cur _ (by omega) (by omega) (fun c hcm => by have := hr c hcm; omega), Nat.zero_add]

theorem compact_length (flags : List Byte) (k i cur : Nat) (R : List Row) :
    (compact flags k i cur R).length = R.length := by
  induction k generalizing i cur R with
  | zero => rfl
  | succ k ih => simp only [compact]; split <;> simp [ih]

theorem compact_take (flags : List Byte) (k i cur : Nat) (R : List Row) (hc : cur ≤ i)
    (hf : i + k ≤ flags.length) (hr : i + k ≤ R.length) :
    (compact flags k i cur R).take (cur + ones flags k i) =
      R.take cur ++ keep ((flags.drop i).take k) ((R.drop i).take k) := by
  induction k generalizing i cur R with
  | zero => simp [compact, ones, keep]
  | succ k ih =>
    have hf' : flags.drop i = flags[i]'(by omega) :: flags.drop (i + 1) :=
      List.drop_eq_getElem_cons (by omega)
    have hr' : R.drop i = R[i]'(by omega) :: R.drop (i + 1) := List.drop_eq_getElem_cons (by omega)
    have hg : flags.getD i 0 = flags[i]'(by omega) := by
      rw [List.getD_eq_getElem?_getD, List.getElem?_eq_getElem (by omega)]; rfl
    simp only [compact, ones]
    rw [hf', hr', List.take_succ_cons, List.take_succ_cons, keep_cons, hg]
    by_cases h1 : flags[i]'(by omega) = 1
    · simp only [h1, if_true]
      rw [← Nat.add_assoc, ih (i + 1) (cur + 1) _ (by omega) (by omega) (by simp; omega)]
      have e1 : (R.set cur (R.getD i [])).drop (i + 1) = R.drop (i + 1) := by
        rw [List.drop_set, if_pos (by omega)]
      have e2 : (R.set cur (R.getD i [])).take (cur + 1) = R.take cur ++ [R[i]'(by omega)] := by
        rw [List.take_set, List.take_succ_eq_append_getElem (by omega), List.set_append_right _ _ (by simp)]
        have : cur - (R.take cur).length = 0 := by simp; omega
        rw [this, List.getD_eq_getElem?_getD, List.getElem?_eq_getElem (by omega)]
        rfl
      rw [e1, e2, List.append_assoc]
      rfl
    · simp only [h1, if_false, Nat.zero_add]
      rw [ih (i + 1) cur _ (by omega) (by omega) (by omega)]

theorem extractActive_eq {t : Table} {n : Nat} (hc : ∀ c ∈ t.cols, c.data.rows.length = n ∧
      c.data.cols = divCeil c.data.bits 8)
    (h0 : t.cols = [] → n = 0) (hf : t.isActive.length = n) :
    extractActive t = .ok ⟨[], t.cols.map (withRows (keep t.isActive))⟩ := by
  have hrows : t.rows = n := by
    unfold rows
    match hcc : t.cols with
    | [] => exact (h0 hcc).symm
    | c :: l => exact (hc c (by rw [hcc]; simp)).1
  unfold extractActive
  by_cases hz : t.isActive.length = 0
  · rw [if_pos hz]
    have ha : t.isActive = [] := List.length_eq_zero_iff.1 hz
    obtain ⟨act, cols⟩ := t
    simp only at ha hz hf hc
    subst ha
    congr 1
    simp only [Table.mk.injEq, true_and]
    conv_lhs => rw [← List.map_id cols]
    apply List.map_congr_left
    intro c hcm
    have h1 : c.data.rows.length = 0 := by rw [(hc c hcm).1, ← hf]; rfl
    have h2 : c.data.rows = [] := List.length_eq_zero_iff.1 h1
    obtain ⟨i, d⟩ := c
    obtain ⟨b, w, r⟩ := d
    simp only at h2
    subst h2
    rfl
  · rw [if_neg hz, hrows, extractLoop_eq t.isActive n 0 0 t.cols (by omega) (by omega)
      (fun c hcm => by have := (hc c hcm).1; omega), ok_bind]
    simp only
    rw [mapRes_ok (g := withRows (fun R => R.take (0 + ones t.isActive n 0))), ok_bind]
    · rw [List.map_map]
      congr 2
      apply List.map_congr_left
      intro c hcm
      have h1 := (hc c hcm).1
      have := compact_take t.isActive n 0 0 c.data.rows (by omega) (by omega) (by omega)
      simp only [List.drop_zero, List.take_zero, List.nil_append] at this
      rw [List.take_of_length_le (l := t.isActive) (by omega),
        List.take_of_length_le (l := c.data.rows) (by omega)] at this
      simp only [withRows, Function.comp]
      rw [this]
    · intro c hcm
      obtain ⟨c', hc', rfl⟩ := List.mem_map.1 hcm
      rw [shrink, if_neg]
      · rfl
      · simp only [withRows, ne_eq, not_not]
        exact (hc c' hc').2

/-! ## permute -/

/-- Rows moved by a permutation. -/
def moved (p : Perm) (op : PermOp) (x : List α) : List α :=
  match op with
  | .regular => gather p.pi x
  | .inverse => gather (invList p.pi) x

theorem apply_moved {p : Perm} {op : PermOp} {src dst : Mat α} (hb : IsPermList p.pi)
    (h1 : src.rows.length = p.size) (h2 : dst.rows.length = p.size) (h3 : src.cols = dst.cols) :
    p.apply src dst op = .ok ⟨src.cols, moved p op src.rows⟩ := by
  cases op
  · exact Perm.apply_regular_eq hb.1 h1 h2 h3
  · exact Perm.apply_inverse_eq hb h1 h2 h3

theorem applyVec_moved {p : Perm} {op : PermOp} {z : α} {src : List α} (hb : IsPermList p.pi)
    (h1 : src.length = p.size) : p.applyVec z src op = .ok (moved p op src) := by
  cases op
  · exact Perm.applyVec_regular_eq hb.1 h1
  · exact Perm.applyVec_inverse_eq hb h1

theorem permute_eq {t : Table} {n : Nat} {p : Perm} {op : PermOp} (ht : t.WF n)
    (hb : IsPermList p.pi) (hn : p.pi.length = n) :
    t.permute p op = .ok ⟨moved p op t.isActive, t.cols.map (withRows (moved p op))⟩ := by
  unfold permute
  rw [mapRes_ok (g := withRows (moved p op)), ok_bind]
  · rcases ht.flags with h | h
    · rw [h]
      have : moved p op ([] : List Byte) = [] := by cases op <;> simp [moved, gather]
      rw [this]; rfl
    · split
      · rw [applyVec_moved hb (by rw [Perm.size, hn, h]), ok_bind]
      · rename_i h0
        have h0 : t.isActive = [] := List.length_eq_zero_iff.1 (by omega)
        rw [h0]
        have : moved p op ([] : List Byte) = [] := by cases op <;> simp [moved, gather]
        rw [this]
  · intro c hc
    have hw := ht.col c hc
    have hl : c.data.rows.length = n := hw.shape.1
    simp only [permuteCol]
    rw [apply_moved (src := c.data.mat) (dst := (BinMatrix.zero c.data.rows.length c.data.bits).mat)
      hb (by show c.data.rows.length = _; rw [Perm.size, hn, hl])
      (by simp [BinMatrix.mat, BinMatrix.zero, Perm.size, hn, hl])
      (by simp [BinMatrix.mat, BinMatrix.zero, hw.cols, hw.bits])]
    simp only [ok_bind, withRows, BinMatrix.mat, BinMatrix.zero]
    rw [hw.cols, hw.bits, Nat.mul_one]

/-! ## init -/

theorem initLoop_ok {rows : Nat} {names : List (List Byte)} {infos : List ColumnInfo}
    (h1 : (infos.map (·.name)).Nodup) (h2 : ∀ i ∈ infos, i.name ∉ names)
    (h3 : ∀ i ∈ infos, i.type = .string → i.bits % 8 = 0) :
    initLoop rows names infos = .ok (infos.map fun i => ⟨i, BinMatrix.zero rows i.bits⟩) := by
  induction infos generalizing names with
  | nil => rfl
  | cons i t ih =>
    have hc : names.contains i.name = false := by
      rw [Bool.eq_false_iff]
      intro hcc
      exact h2 i (by simp) (by simpa using hcc)
    have hs : (i.type == .string && i.bits % 8 != 0) = false := by
      by_cases hty : i.type = .string
      · simp [h3 i (by simp) hty]
      · have : (i.type == ColumnType.string) = false := by simpa using hty
        simp [this]
    simp only [List.map_cons, List.nodup_cons] at h1
    simp only [initLoop, hc, throwIf_false, ok_bind, mkColumnInfo, hs]
    rw [ih h1.2 ?_ (fun j hj => h3 j (by simp [hj]))]
    · rfl
    · intro j hj
      simp only [List.mem_cons, not_or]
      refine ⟨fun he => h1.1 (he ▸ List.mem_map.2 ⟨j, hj, rfl⟩), h2 j (by simp [hj])⟩

/-! ## reveal -/

/-- XOR of two columns of rows. -/
def xrows (a b : Column) : List Row := List.zipWith xorRow a.data.rows b.data.rows

/-- Column of `ret` after `i` rows. -/
def retCol (size i : Nat) (a b : Column) : Column :=
  ⟨a.info, ⟨a.info.bits, divCeil a.info.bits 8,
    (xrows a b).take i ++ List.replicate (size - i) (List.replicate (divCeil a.info.bits 8) 0)⟩⟩

theorem set_take_append {X : List α} {z : α} {i size : Nat} (hi : i < X.length) (hs : i < size) :
    (X.take i ++ List.replicate (size - i) z).set i X[i] =
      X.take (i + 1) ++ List.replicate (size - (i + 1)) z := by
  rw [List.set_append_right _ _ (by simp)]
  have h1 : i - (X.take i).length = 0 := by simp; omega
  have h2 : size - i = (size - (i + 1)) + 1 := by omega
  rw [h1, h2, List.replicate_succ, List.set_cons_zero, List.take_succ_eq_append_getElem hi,
    List.append_assoc]
  rfl

theorem revealCell_eq {n size i : Nat} {a b : Column} (ha : a.WF n) (hb : b.WF n)
    (hab : a.info = b.info) (hi : i < n) (hs : n ≤ size) :
    revealCell i (retCol size i a b) a b = .ok (retCol size (i + 1) a b) := by
  have la := ha.shape.1
  have lb := hb.shape.1
  have wa := ha.shape.2 (a.data.rows[i]'(by omega)) (List.getElem_mem _)
  have wb := hb.shape.2 (b.data.rows[i]'(by omega)) (List.getElem_mem _)
  rw [← hab] at wb
  have hx : i < (xrows a b).length := by simp [xrows, la, lb]; omega
  unfold revealCell
  rw [rd_ok (by omega), ok_bind, rd_ok (by omega), ok_bind, revealRow, if_pos, ok_bind, wr_ok, ok_bind]
  · simp only [retCol]
    rw [← set_take_append hx (by omega)]
    rw [List.take_of_length_le (l := a.data.rows[i]'(by omega)) (by omega),
      List.take_of_length_le (l := b.data.rows[i]'(by omega)) (by omega)]
    simp [xrows]
  · simp [retCol]; omega
  · simp only [retCol]; omega

theorem revealCells_eq {n size i : Nat} {as bs : List Column} (ha : ∀ c ∈ as, c.WF n)
    (hb : ∀ c ∈ bs, c.WF n) (hab : as.map (·.info) = bs.map (·.info)) (hi : i < n) (hs : n ≤ size) :
    revealCells i (List.zipWith (retCol size i) as bs) as bs =
      .ok (List.zipWith (retCol size (i + 1)) as bs) := by
  induction as generalizing bs with
  | nil =>
    cases bs with
    | nil => rfl
    | cons => simp at hab
  | cons a as ih =>
    cases bs with
    | nil => simp at hab
    | cons b bs =>
      simp only [List.map_cons, List.cons.injEq] at hab
      simp only [List.zipWith_cons_cons, revealCells]
      rw [revealCell_eq (ha a (by simp)) (hb b (by simp)) hab.1 hi hs, ok_bind,
        ih (fun c hc => ha c (by simp [hc])) (fun c hc => hb c (by simp [hc])) hab.2]
      rfl

/-- The flags of the revealed table. -/
def xflags (t0 t1 : Table) (n : Nat) : List Byte :=
  if t0.isActive.length = 0 then List.replicate n 1
  else List.zipWith (· ^^^ ·) t0.isActive t1.isActive

theorem xflags_length {t0 t1 : Table} {n : Nat} (h0 : t0.isActive = [] ∨ t0.isActive.length = n)
    (h1 : t0.isActive = [] ∨ t1.isActive.length = n) : (xflags t0 t1 n).length = n := by
  unfold xflags
  split
  · simp
  · rename_i h
    rcases h0 with h0 | h0
    · simp [h0] at h
    · rcases h1 with h1 | h1
      · simp [h1] at h
      · simp [h0, h1]

theorem revealLoop_eq {n size : Nat} {t0 t1 : Table} (ha : ∀ c ∈ t0.cols, c.WF n)
    (hb : ∀ c ∈ t1.cols, c.WF n) (hab : t0.cols.map (·.info) = t1.cols.map (·.info)) (hs : n ≤ size)
    (h0 : t0.isActive = [] ∨ t0.isActive.length = n)
    (h1 : t0.isActive = [] ∨ t1.isActive.length = n) (k i : Nat) (hk : i + k = n) :
    revealLoop t0 t1 k i ⟨(xflags t0 t1 n).take i ++ List.replicate (size - i) 0,
        List.zipWith (retCol size i) t0.cols t1.cols⟩ =
      .ok ⟨xflags t0 t1 n ++ List.replicate (size - n) 0,
        List.zipWith (retCol size n) t0.cols t1.cols⟩ := by
  have hx := xflags_length h0 h1
  induction k generalizing i with
  | zero =>
    have : i = n := by omega
    subst this
    simp only [revealLoop]
    rw [List.take_of_length_le (by omega)]
  | succ k ih =>
    simp only [revealLoop]
    have hfl : (if t0.isActive.length = 0 then (.ok 1 : Res Byte) else do
        let a ← rd t0.isActive i
        let b ← rd t1.isActive i
        .ok (a ^^^ b)) = .ok ((xflags t0 t1 n)[i]'(by omega)) := by
      unfold xflags
      by_cases hz : t0.isActive.length = 0
      · simp [hz]
      · have e0 : t0.isActive.length = n := by
          rcases h0 with h0 | h0
          · simp [h0] at hz
          · exact h0
        have e1 : t1.isActive.length = n := by
          rcases h1 with h1 | h1
          · simp [h1] at hz
          · exact h1
        rw [if_neg hz, rd_ok (by omega), ok_bind, rd_ok (by omega), ok_bind]
        simp [hz]
    rw [hfl, ok_bind, wr_ok (by simp; omega), ok_bind, set_take_append (by omega) (by omega),
      revealCells_eq ha hb hab (by omega) hs, ok_bind, ih (i + 1) (by omega)]

theorem countLoop_ok {f0 f1 : List Byte} {k i size : Nat} (h0 : i + k ≤ f0.length)
    (h1 : i + k ≤ f1.length)
    (hb : ∀ j (h0 : j < f0.length) (h1 : j < f1.length), (f0[j] ^^^ f1[j]).toNat < 2) :
    ∃ s, countLoop f0 f1 k i size = .ok s ∧ size ≤ s := by
  induction k generalizing i size with
  | zero => exact ⟨size, rfl, Nat.le_refl _⟩
  | succ k ih =>
    simp only [countLoop]
    rw [rd_ok (by omega), ok_bind, rd_ok (by omega), ok_bind, if_pos (hb i _ _)]
    obtain ⟨s, e, h⟩ := ih (i := i + 1) (size := size + (f0[i] ^^^ f1[i]).toNat) (by omega) (by omega)
    exact ⟨s, e, by omega⟩

/-- The revealed columns. -/
def xcols (t0 t1 : Table) : List Column :=
  List.zipWith (fun a b => ⟨a.info, ⟨a.info.bits, divCeil a.info.bits 8, xrows a b⟩⟩) t0.cols t1.cols

theorem xcols_length {n : Nat} {t0 t1 : Table} (ha : ∀ c ∈ t0.cols, c.WF n)
    (hb : ∀ c ∈ t1.cols, c.WF n) (c : Column) (hc : c ∈ xcols t0 t1) :
    c.data.rows.length = n ∧ c.data.cols = divCeil c.data.bits 8 := by
  unfold xcols at hc
  obtain ⟨i, hi, rfl⟩ := List.getElem_of_mem hc
  simp only [List.getElem_zipWith]
  simp only [List.length_zipWith, Nat.lt_min] at hi
  have h1 := (ha _ (List.getElem_mem hi.1)).shape.1
  have h2 := (hb _ (List.getElem_mem hi.2)).shape.1
  exact ⟨by simp [xrows, h1, h2], trivial⟩

theorem reveal_ok {n : Nat} {t0 t1 : Table} (h0 : t0.WF n) (h1 : t1.WF n)
    (hab : t0.getColumnInfo = t1.getColumnInfo)
    (hf : t0.isActive = [] ∨ t1.isActive.length = n) :
    ((∀ j (h0 : j < t0.isActive.length) (h1 : j < t1.isActive.length),
      (t0.isActive[j] ^^^ t1.isActive[j]).toNat < 2) →
      reveal t0 t1 true = .ok ⟨[], (xcols t0 t1).map (withRows (keep (xflags t0 t1 n)))⟩) ∧
    reveal t0 t1 false = .ok ⟨xflags t0 t1 n, xcols t0 t1⟩ := by
  have hr0 := h0.rows_eq
  have hr1 := h1.rows_eq
  have ht : (t0.getColumnInfo != t1.getColumnInfo || t0.rows != t1.rows) = false := by
    rw [hab, hr0, hr1]; simp
  have hinit : ∀ size, init size t0.getColumnInfo =
      .ok ⟨[], t0.getColumnInfo.map fun i => ⟨i, BinMatrix.zero size i.bits⟩⟩ := by
    intro size
    unfold init
    rw [initLoop_ok]
    · rfl
    · rw [getColumnInfo, List.map_map]; exact h0.names
    · simp
    · intro i hi
      obtain ⟨c, hc, rfl⟩ := List.mem_map.1 hi
      exact (h0.col c hc).str
  have hret : ∀ size, (t0.getColumnInfo.map fun i => (⟨i, BinMatrix.zero size i.bits⟩ : Column)) =
      List.zipWith (retCol size 0) t0.cols t1.cols := by
    intro size
    have hl : t0.cols.length = t1.cols.length := by
      have := congrArg List.length hab
      simpa [getColumnInfo] using this
    apply List.ext_getElem
    · simp [getColumnInfo, hl]
    · intro i hi hi'
      simp [getColumnInfo, retCol, BinMatrix.zero]
  have hloop : ∀ size, n ≤ size → revealLoop t0 t1 n 0 ⟨List.replicate size 0,
      t0.getColumnInfo.map fun i => ⟨i, BinMatrix.zero size i.bits⟩⟩ =
      .ok ⟨xflags t0 t1 n ++ List.replicate (size - n) 0,
        List.zipWith (retCol size n) t0.cols t1.cols⟩ := by
    intro size hs
    rw [hret]
    have := revealLoop_eq (size := size) h0.col h1.col hab hs h0.flags hf n 0 (by omega)
    simpa using this
  have hxl := xflags_length h0.flags hf
  constructor
  · intro hb
    obtain ⟨size, hsz, hle⟩ : ∃ size, (if t0.isActive.length ≠ 0 ∧ true = true then
        countLoop t0.isActive t1.isActive t0.rows 0 t0.rows else .ok t0.rows) = .ok size ∧ n ≤ size := by
      by_cases hz : t0.isActive.length ≠ 0
      · rw [if_pos ⟨hz, rfl⟩]
        have e0 : t0.isActive.length = n := by
          rcases h0.flags with h | h
          · simp [h] at hz
          · exact h
        have e1 : t1.isActive.length = n := by
          rcases hf with h | h
          · simp [h] at hz
          · exact h
        rw [hr0]
        exact countLoop_ok (by omega) (by omega) hb
      · rw [if_neg (fun h => hz h.1), hr0]
        exact ⟨n, rfl, Nat.le_refl _⟩
    unfold reveal
    rw [ht, throwIf_false, ok_bind, hsz, ok_bind, hinit, ok_bind, hr0]
    simp only
    rw [hloop size hle, ok_bind, if_pos trivial, extractActive_eq (n := size)]
    · congr 2
      unfold xcols
      rw [List.map_zipWith, List.map_zipWith]
      apply List.ext_getElem
      · simp
      · intro i hi hi'
        simp only [List.getElem_zipWith, withRows, retCol]
        simp only [List.length_zipWith, Nat.lt_min] at hi
        have l1 := (h0.col _ (List.getElem_mem hi.1)).shape.1
        have l2 := (h1.col _ (List.getElem_mem hi.2)).shape.1
        have l3 : (xrows t0.cols[i] t1.cols[i]).length = n := by simp [xrows, l1, l2]
        congr 2
        rw [List.take_of_length_le (l := xrows _ _) (by omega), keep_append (by rw [hxl, l3]), keep_zeros,
          List.append_nil]
    · intro c hc
      obtain ⟨i, hi, rfl⟩ := List.getElem_of_mem hc
      simp only [List.getElem_zipWith, retCol]
      simp only [List.length_zipWith, Nat.lt_min] at hi
      have l1 := (h0.col _ (List.getElem_mem hi.1)).shape.1
      have l2 := (h1.col _ (List.getElem_mem hi.2)).shape.1
      exact ⟨by simp [xrows, l1, l2]; omega, trivial⟩
    · intro hnil
      have : t0.cols = [] := by
        have hl : t0.cols.length = t1.cols.length := by
          have := congrArg List.length hab
          simpa [getColumnInfo] using this
        have := congrArg List.length hnil
        simp only [List.length_zipWith, List.length_nil] at this
        exact List.length_eq_zero_iff.1 (by omega)
      have hn0 := h0.empty this
      by_cases hz : t0.isActive.length ≠ 0
      · rcases h0.flags with h | h
        · simp [h] at hz
        · omega
      · rw [if_neg (fun h => hz h.1), hr0] at hsz
        cases hsz
        exact hn0
    · simp [hxl]; omega
  · unfold reveal
    rw [ht, throwIf_false, ok_bind, if_neg (by simp), ok_bind, hr0, hinit, ok_bind]
    simp only
    rw [hloop n (Nat.le_refl _), ok_bind, if_neg (by simp)]
    simp only [Nat.sub_self, List.replicate_zero, List.append_nil]
    congr 2
    unfold xcols
    apply List.ext_getElem
    · simp
    · intro i hi hi'
      simp only [List.getElem_zipWith, retCol]
      simp only [List.length_zipWith, Nat.lt_min] at hi
      have l1 := (h0.col _ (List.getElem_mem hi.1)).shape.1
      have l2 := (h1.col _ (List.getElem_mem hi.2)).shape.1
      rw [List.take_of_length_le (by simp [xrows, l1, l2])]
      simp

end Table
end SecJoin
