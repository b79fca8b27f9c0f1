import Verif.Table.JoinLemmas
import Verif.Sort.PlainProps
/-!
# C17: the plaintext join
-/
namespace SecJoin
namespace Table

/-- The selected cells for left row `a` and right row `b`. -/
def pairCells (select : List (Side × Column)) (a b : Nat) : List (Option Row) :=
  select.map fun s => s.2.data.rows[if s.1 = .right then b else a]?

/-- With distinct left keys, the output has one row for every right row, in key order: position `d`
belongs to the right row `q[d]`. If a left row has the same key, the flag is one and the cells are
those of the matching pair; otherwise the flag is zero and the cells are zero. -/
theorem C17_join_partial {l r : Column} {n m : Nat} (hl : l.WF n) (hr : r.WF m)
    (hbits : l.info.bits = r.info.bits) (hd : l.data.rows.Nodup) {select : List (Side × Column)}
    (hs : ∀ s ∈ select, (s.1 = .left ∧ s.2.WF n) ∨ (s.1 = .right ∧ s.2.WF m))
    (hnames : (select.map (·.2.info.name)).Nodup) :
    ∃ t q, join l r select = .ok t ∧ IsBijection q ∧ q.length = m ∧ t.isActive.length = m ∧
      t.getColumnInfo = select.map (·.2.info) ∧
      (∀ i j (hi : i < q.length) (hj : j < q.length), i < j →
        leValue (r.data.rows.getD q[i] []) < leValue (r.data.rows.getD q[j] []) ∨
        (leValue (r.data.rows.getD q[i] []) = leValue (r.data.rows.getD q[j] []) ∧ q[i] < q[j])) ∧
      ∀ d (hd : d < q.length),
        (∀ a < n, l.data.rows[a]? = r.data.rows[q[d]]? →
          t.isActive[d]? = some 1 ∧ t.rowAt d = pairCells select a q[d]) ∧
        ((∀ a < n, l.data.rows[a]? ≠ r.data.rows[q[d]]?) →
          t.isActive[d]? = some 0 ∧
          t.rowAt d = select.map fun s => some (List.replicate (divCeil s.2.info.bits 8) 0)) := by
  have hL := Sorted.of_plainSort hl.shape
  have hR : Sorted r.data.rows (plainSort r.data.rows) m (divCeil l.info.bits 8) := by
    rw [hbits]; exact Sorted.of_plainSort hr.shape
  obtain ⟨b1, b2, b3⟩ := C16_sort hr.shape
  refine ⟨outTable l.data.rows r.data.rows (plainSort r.data.rows) m select m, plainSort r.data.rows,
    ?_, b1, b2, by simp [outTable], by simp [outTable, getColumnInfo], b3, ?_⟩
  · unfold join
    rw [hbits, bne_self_eq_false, throwIf_false, ok_bind]
    have hnodup : ∀ p, 0 < p → p < n → keyAt l.data.rows (plainSort l.data.rows) (p - 1) ≠
        keyAt l.data.rows (plainSort l.data.rows) p := by
      intro p h0 hp he
      obtain ⟨-, x2, -, x4⟩ := hL.rd (show p - 1 < n by omega)
      obtain ⟨-, y2, -, y4⟩ := hL.rd hp
      have := bytesNat_inj (by rw [x4, y4]) he
      rw [getD_eq_getElem' [] (by rw [hl.shape.1]; exact x2),
        getD_eq_getElem' [] (by rw [hl.shape.1]; exact y2)] at this
      have := (List.getElem_inj hd).1 this
      rw [getD_eq_getElem' 0 (by rw [hL.len]; omega), getD_eq_getElem' 0 (by rw [hL.len]; omega)] at this
      have := (List.getElem_inj hL.perm.2).1 this
      omega
    rcases mergeLoop_spec hL hR m 0 0 (by omega) (by omega) (fun p hp => by omega)
      (fun p _ hp => by omega) with ⟨-, p, h0, h1, h2⟩ | ⟨I, e, h1, -⟩
    · exact absurd h2 (hnodup p h0 h1)
    · simp only
      rw [hr.shape.1, e, ok_bind]
      have hany : (select.any fun s => s.1 == .other) = false := by
        rw [List.any_eq_false]
        intro s hs'
        rcases hs s hs' with h | h <;> rw [h.1] <;> decide
      rw [hany, throwIf_false, ok_bind]
      have hinit : init m (select.map fun s => s.2.info) =
          .ok ⟨[], (select.map fun s => s.2.info).map fun i => ⟨i, BinMatrix.zero m i.bits⟩⟩ := by
        unfold init
        rw [initLoop_ok]
        · rfl
        · rw [List.map_map]; exact hnames
        · simp
        · intro i hi
          obtain ⟨s, hs', rfl⟩ := List.mem_map.1 hi
          rcases hs s hs' with h | h <;> exact h.2.str
      rw [hinit, ok_bind, h1 hd]
      have h0 : ({ isActive := List.replicate m 0, cols := (select.map fun s => s.2.info).map fun i =>
            ⟨i, BinMatrix.zero m i.bits⟩ } : Table) =
          outTable l.data.rows r.data.rows (plainSort r.data.rows) m select 0 := by
        unfold outTable
        congr 1
        · simp [List.map_const']
        · rw [List.map_map]
          apply List.map_congr_left
          intro s _
          simp [BinMatrix.zero, List.map_const']
      simp only
      rw [h0]
      refine joinOut_ok ?_ ?_ m 0 (by omega)
      · intro d hd; exact (hR.rd hd).2.1
      · rw [hl.shape.1]; exact hs
  · intro d hd'
    have hdm : d < m := by rw [← b2]; exact hd'
    have hq : (plainSort r.data.rows).getD d 0 = (plainSort r.data.rows)[d] := getD_eq_getElem' 0 hd'
    have hqm : (plainSort r.data.rows)[d] < m := by rw [← hq]; exact (hR.rd hdm).2.1
    have hrk : rKey r.data.rows (plainSort r.data.rows) d = r.data.rows[(plainSort r.data.rows)[d]]'(by rw [hr.shape.1]; exact hqm) := by
      unfold rKey
      rw [hq, getD_eq_getElem' []]
    have hr? : r.data.rows[(plainSort r.data.rows)[d]]? = some (rKey r.data.rows (plainSort r.data.rows) d) := by
      rw [hrk, List.getElem?_eq_getElem]
    have hflag : (outTable l.data.rows r.data.rows (plainSort r.data.rows) m select m).isActive[d]? =
        some (outFlag l.data.rows r.data.rows (plainSort r.data.rows) d) := by
      simp [outTable, hdm]
    have hrow : (outTable l.data.rows r.data.rows (plainSort r.data.rows) m select m).rowAt d =
        select.map fun s => some (outCell l.data.rows r.data.rows (plainSort r.data.rows) s d) := by
      simp only [outTable, rowAt, List.map_map]
      apply List.map_congr_left
      intro s _
      simp [hdm]
    rw [hflag, hrow]
    constructor
    · intro a ha he
      have ha' : a < l.data.rows.length := by rw [hl.shape.1]; exact ha
      rw [hr?, List.getElem?_eq_getElem ha', Option.some.injEq] at he
      have hm := matchL_some hd ha' (key := rKey r.data.rows (plainSort r.data.rows) d)
        (by rw [getD_eq_getElem' [] ha', he])
      refine ⟨by simp [outFlag, hm], ?_⟩
      unfold pairCells
      apply List.map_congr_left
      intro s hs'
      unfold outCell
      rw [hm, hq]
      simp only
      have hlt : (if s.1 = .right then (plainSort r.data.rows)[d] else a) < s.2.data.rows.length := by
        rcases hs s hs' with ⟨h1, h2⟩ | ⟨h1, h2⟩
        · rw [if_neg (by rw [h1]; decide), h2.shape.1]; exact ha
        · rw [if_pos h1, h2.shape.1]; exact hqm
      rw [getD_eq_getElem' [] hlt, List.getElem?_eq_getElem hlt]
    · intro hno
      have hm : matchL l.data.rows (rKey r.data.rows (plainSort r.data.rows) d) = none := by
        apply matchL_none
        intro a ha he
        apply hno a (by rw [← hl.shape.1]; exact ha)
        rw [hr?, List.getElem?_eq_getElem ha, ← he, getD_eq_getElem' [] ha]
      refine ⟨by simp [outFlag, hm], ?_⟩
      apply List.map_congr_left
      intro s _
      simp [outCell, hm]

/-- Keys of different bit widths are refused. -/
theorem C17_widths_refused {l r : Column} {select : List (Side × Column)}
    (h : l.info.bits ≠ r.info.bits) : join l r select = .error .throw := by
  unfold join
  have : (l.info.bits != r.info.bits) = true := by simpa using h
  rw [this]; rfl

/-- Duplicate left keys are refused if some right key is larger than the duplicated key. What is
missing: duplicates that are at least as large as every right key are accepted, see
`C17_duplicate_accepted`. -/
theorem C17_duplicates_refused_partial {l r : Column} {n m : Nat} (hl : l.WF n) (hr : r.WF m)
    (hbits : l.info.bits = r.info.bits) {select : List (Side × Column)}
    {a b : Nat} (ha : a < n) (hb : b < n) (hab : a ≠ b)
    (hdup : l.data.rows.getD a [] = l.data.rows.getD b []) {j : Nat} (hj : j < m)
    (hlt : leValue (l.data.rows.getD a []) < leValue (r.data.rows.getD j [])) :
    join l r select = .error .throw := by
  have hL := Sorted.of_plainSort hl.shape
  have hR : Sorted r.data.rows (plainSort r.data.rows) m (divCeil l.info.bits 8) := by
    rw [hbits]; exact Sorted.of_plainSort hr.shape
  unfold join
  rw [hbits, bne_self_eq_false, throwIf_false, ok_bind]
  rcases mergeLoop_spec hL hR m 0 0 (by omega) (by omega) (fun p hp => by omega)
      (fun p _ hp => by omega) with ⟨e, -⟩ | ⟨I, -, -, h2⟩
  · simp only
    rw [hr.shape.1, e]; rfl
  · exfalso
    -- positions of the two duplicates and of the larger right row
    have pos : ∀ {L : List Row} {LP : List Nat} {n c x : Nat} (_ : Sorted L LP n c) (_ : x < n),
        ∃ p < n, LP.getD p 0 = x := by
      intro L LP n c x h hx
      obtain ⟨p, hp, he⟩ := List.getElem_of_mem (h.perm.mem (by rw [h.len]; exact hx))
      exact ⟨p, by rw [← h.len]; exact hp, by rw [getD_eq_getElem' 0 hp]; exact he⟩
    obtain ⟨d, hd, ed⟩ := pos hR hj
    have key : ∀ pa pb, pa < n → pb < n → pa < pb →
        leValue (l.data.rows.getD ((plainSort l.data.rows).getD pa 0) []) =
          leValue (l.data.rows.getD ((plainSort l.data.rows).getD pb 0) []) →
        leValue (l.data.rows.getD ((plainSort l.data.rows).getD pb 0) []) <
          leValue (r.data.rows.getD j []) → False := by
      intro pa pb hpa hpb hlt' he hl'
      rw [leValue_eq, leValue_eq] at he hl'
      refine h2 d (by omega) hd pb hpb ?_ (by omega) ?_
      · unfold keyAt rowKey
        rw [ed]; exact hl'
      · have h3 := hL.mono pa (pb - 1) (by omega) (by omega)
        have h4 := hL.mono (pb - 1) pb (by omega) hpb
        have h5 : keyAt l.data.rows (plainSort l.data.rows) pa =
          keyAt l.data.rows (plainSort l.data.rows) pb := he
        omega
    obtain ⟨pa, hpa, ea⟩ := pos hL ha
    obtain ⟨pb, hpb, eb⟩ := pos hL hb
    rcases Nat.lt_trichotomy pa pb with h | h | h
    · refine key pa pb hpa hpb h (by rw [ea, eb, hdup]) (by rw [eb, ← hdup]; exact hlt)
    · subst h; exact hab (ea.symm.trans eb)
    · refine key pb pa hpb hpa h (by rw [ea, eb, hdup]) (by rw [ea]; exact hlt)

/-- Duplicate left keys are not always refused: here both left rows have the key of the right row. -/
theorem C17_duplicate_accepted :
    ∃ (l r : Column) (t : Table), l.WF 2 ∧ r.WF 1 ∧ ¬ l.data.rows.Nodup ∧
      join l r [(.left, l)] = .ok t ∧ t.isActive = [1] := by
  refine ⟨⟨⟨[97], .int, 8⟩, ⟨8, 1, [[5], [5]]⟩⟩, ⟨⟨[97], .int, 8⟩, ⟨8, 1, [[5]]⟩⟩,
    ⟨[1], [⟨⟨[97], .int, 8⟩, ⟨8, 1, [[5]]⟩⟩]⟩, ?_, ?_, by decide, ?_, rfl⟩
  · exact ⟨rfl, rfl, by decide, by simp⟩
  · exact ⟨rfl, rfl, by decide, by simp⟩
  · have h1 : plainSort [[5], [5]] = [0, 1] :=
      plainSort_eq (n := 2) (c := 1) (by decide) ⟨by decide, by decide⟩ rfl (by decide)
    have h2 : plainSort [[5]] = [0] :=
      plainSort_eq (n := 1) (c := 1) (by decide) ⟨by decide, by decide⟩ rfl (by decide)
    simp only [join, h1, h2]
    decide +kernel

/-! ## The hypotheses are met -/

def exL : Column := ⟨⟨[97], .int, 16⟩, ⟨16, 2, [[5, 1], [0, 2], [255, 0]]⟩⟩
def exR : Column := ⟨⟨[98], .int, 16⟩, ⟨16, 2, [[0, 2], [7, 0], [5, 1], [0, 2]]⟩⟩

example : ∃ t q, join exL exR [(.left, exL), (.right, exR)] = .ok t ∧ IsBijection q ∧ q.length = 4 := by
  obtain ⟨t, q, h1, h2, h3, -⟩ := C17_join_partial (l := exL) (r := exR) (n := 3) (m := 4)
    (select := [(.left, exL), (.right, exR)]) ⟨rfl, rfl, by decide, by simp [exL]⟩
    ⟨rfl, rfl, by decide, by simp [exR]⟩ rfl (by decide)
    (by
      intro s hs
      simp only [List.mem_cons, List.not_mem_nil, or_false] at hs
      rcases hs with rfl | rfl
      · exact Or.inl ⟨rfl, rfl, rfl, by decide, by simp [exL]⟩
      · exact Or.inr ⟨rfl, rfl, rfl, by decide, by simp [exR]⟩) (by decide)
  exact ⟨t, q, h1, h2, h3⟩

example : join ⟨⟨[97], .int, 8⟩, ⟨8, 1, [[5], [3], [5]]⟩⟩ ⟨⟨[98], .int, 8⟩, ⟨8, 1, [[6], [1]]⟩⟩ [] =
    .error .throw :=
  C17_duplicates_refused_partial (l := ⟨⟨[97], .int, 8⟩, ⟨8, 1, [[5], [3], [5]]⟩⟩)
    (r := ⟨⟨[98], .int, 8⟩, ⟨8, 1, [[6], [1]]⟩⟩) (n := 3) (m := 2) (a := 0) (b := 2) (j := 0)
    ⟨rfl, rfl, by decide, by simp⟩ ⟨rfl, rfl, by decide, by simp⟩ rfl (by decide) (by decide) (by decide)
    rfl (by decide) (by decide)

end Table
end SecJoin
