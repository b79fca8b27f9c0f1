import Verif.Sort.PlainLemmas
import Verif.Table.JoinModel
/-!
# Lemmas for the plaintext join
-/
namespace SecJoin
namespace Table

/-- Key at sorted position `p`. -/
def keyAt (L : List Row) (LP : List Nat) (p : Nat) : Nat := rowKey L (LP.getD p 0)

theorem getD_eq_getElem' {l : List α} {i : Nat} (d : α) (h : i < l.length) : l.getD i d = l[i] := by
  rw [List.getD_eq_getElem?_getD, List.getElem?_eq_getElem h]; rfl

/-- What is known about the left side: `LP` sorts the rows `L`. -/
structure Sorted (L : List Row) (LP : List Nat) (n c : Nat) : Prop where
  shape : Shape n c L
  perm : IsPermList LP
  len : LP.length = n
  mono : ∀ p q, p ≤ q → q < n → keyAt L LP p ≤ keyAt L LP q

theorem Sorted.of_plainSort {L : List Row} {n c : Nat} (h : Shape n c L) : Sorted L (plainSort L) n c := by
  obtain ⟨h1, h2, h3⟩ := plainSort_spec h
  refine ⟨h, h1, h2, ?_⟩
  intro p q hpq hq
  rcases Nat.lt_or_eq_of_le hpq with h4 | rfl
  · rw [List.pairwise_iff_getElem] at h3
    have := h3 p q (by omega) (by omega) h4
    unfold keyAt
    rw [getD_eq_getElem' _ (by omega), getD_eq_getElem' _ (by omega)]
    unfold KeyOrder at this
    omega
  · exact Nat.le_refl _

theorem Sorted.rd {L : List Row} {LP : List Nat} {n c : Nat} (h : Sorted L LP n c) {p : Nat} (hp : p < n) :
    SecJoin.rd LP p = .ok (LP.getD p 0) ∧ LP.getD p 0 < n ∧
    SecJoin.rd L (LP.getD p 0) = .ok (L.getD (LP.getD p 0) []) ∧ (L.getD (LP.getD p 0) []).length = c := by
  have h1 : p < LP.length := by rw [h.len]; exact hp
  have e1 : LP.getD p 0 = LP[p] := getD_eq_getElem' _ h1
  have h2 : LP.getD p 0 < n := by rw [e1, ← h.len]; exact h.perm.1 _ (List.getElem_mem h1)
  have h3 : LP.getD p 0 < L.length := by rw [h.shape.1]; exact h2
  refine ⟨by rw [rd_ok h1, e1], h2, ?_, shape_getD h.shape h2⟩
  rw [rd_ok h3, getD_eq_getElem' [] h3]

theorem skip_spec {L : List Row} {LP : List Nat} {n c : Nat} (h : Sorted L LP n c) {rk : Row}
    (hr : rk.length = c) (k lIdx : Nat) (hk : k + lIdx = n) :
    (skip L LP rk k lIdx = .error .throw ∧
      ∃ p, 0 < p ∧ p < n ∧ keyAt L LP (p - 1) = keyAt L LP p) ∨
    ∃ l', skip L LP rk k lIdx = .ok l' ∧ lIdx ≤ l' ∧ l' ≤ n ∧
      (∀ p, lIdx ≤ p → p < l' → keyAt L LP p < bytesNat rk ∧ (0 < p → keyAt L LP (p - 1) ≠ keyAt L LP p)) ∧
      (l' < n → bytesNat rk ≤ keyAt L LP l') := by
  induction k generalizing lIdx with
  | zero =>
    right
    exact ⟨lIdx, rfl, Nat.le_refl _, by omega, by omega, by omega⟩
  | succ k ih =>
    have hl : lIdx < n := by omega
    obtain ⟨r1, r2, r3, r4⟩ := h.rd hl
    simp only [skip]
    rw [r1, ok_bind, r3, ok_bind, lessThan_spec (by rw [r4, hr])]
    by_cases hlt : bytesNat (L.getD (LP.getD lIdx 0) []) < bytesNat rk
    · rw [decide_eq_true hlt]
      simp only [if_true]
      have hlt' : keyAt L LP lIdx < bytesNat rk := hlt
      by_cases h0 : lIdx = 0
      · rw [if_neg (by omega), ok_bind]
        rcases ih (lIdx + 1) (by omega) with h1 | ⟨l', e1, e2, e3, e4, e5⟩
        · exact Or.inl h1
        · right
          refine ⟨l', e1, by omega, e3, ?_, e5⟩
          intro p hp1 hp2
          by_cases hp : p = lIdx
          · subst hp; exact ⟨hlt', by omega⟩
          · exact e4 p (by omega) hp2
      · obtain ⟨s1, s2, s3, s4⟩ := h.rd (show lIdx - 1 < n by omega)
        rw [if_pos h0, s1, ok_bind, s3, ok_bind]
        by_cases he : rowEqB (L.getD (LP.getD (lIdx - 1) 0) []) (L.getD (LP.getD lIdx 0) []) = true
        · left
          rw [he]
          refine ⟨rfl, lIdx, by omega, hl, ?_⟩
          have := eq_of_beq he
          unfold keyAt rowKey
          rw [this]
        · rw [Bool.not_eq_true] at he
          rw [he, throwIf_false, ok_bind]
          rcases ih (lIdx + 1) (by omega) with h1 | ⟨l', e1, e2, e3, e4, e5⟩
          · exact Or.inl h1
          · right
            refine ⟨l', e1, by omega, e3, ?_, e5⟩
            intro p hp1 hp2
            by_cases hp : p = lIdx
            · subst hp
              refine ⟨hlt', fun _ hk => ?_⟩
              have := bytesNat_inj (by rw [s4, r4]) hk
              unfold rowEqB at he
              rw [this] at he
              simp at he
            · exact e4 p (by omega) hp2
    · rw [decide_eq_false hlt]
      simp only [Bool.false_eq_true, if_false]
      right
      exact ⟨lIdx, rfl, Nat.le_refl _, by omega, by omega, fun _ => by unfold keyAt rowKey; omega⟩

/-- The left row with a given key. -/
def matchL (L : List Row) (key : Row) : Option Nat :=
  (List.range L.length).find? fun a => L.getD a [] == key

theorem matchL_some {L : List Row} {key : Row} {a : Nat} (hd : L.Nodup) (ha : a < L.length)
    (he : L.getD a [] = key) : matchL L key = some a := by
  unfold matchL
  rw [List.find?_eq_some_iff_append]
  refine ⟨by simpa using he, List.range a, List.range' (a + 1) (L.length - (a + 1)), ?_, ?_⟩
  · have h := List.range'_append_1 (s := 0) (m := a) (n := L.length - a)
    rw [Nat.zero_add, show a + (L.length - a) = L.length by omega] at h
    rw [List.range_eq_range', ← h, List.range_eq_range', show L.length - a = (L.length - (a + 1)) + 1 by omega,
      List.range'_succ]
  · intro x hx
    have hx : x < a := by simpa using hx
    simp only [Bool.not_eq_true', beq_eq_false_iff_ne, ne_eq]
    intro h
    rw [← he, getD_eq_getElem' [] ha, getD_eq_getElem' [] (by omega)] at h
    have := (List.getElem_inj hd).1 h
    omega

theorem matchL_none {L : List Row} {key : Row} (h : ∀ a < L.length, L.getD a [] ≠ key) :
    matchL L key = none := by
  unfold matchL
  rw [List.find?_eq_none]
  intro a ha
  simpa using h a (by simpa using ha)

/-- Right key at sorted position `d`. -/
def rKey (R : List Row) (RP : List Nat) (d : Nat) : Row := R.getD (RP.getD d 0) []

/-- Entry of position `d`. -/
def entry (L R : List Row) (RP : List Nat) (d : Nat) : Option (Nat × Nat × Nat) :=
  (matchL L (rKey R RP d)).map fun a => (a, RP.getD d 0, d)

theorem mergeLoop_spec {L R : List Row} {LP RP : List Nat} {n m c : Nat} (hL : Sorted L LP n c)
    (hR : Sorted R RP m c) (k i lIdx : Nat) (hk : i + k = m) (hl : lIdx ≤ n)
    (hinv : ∀ p < lIdx, ∀ d, i ≤ d → d < m → keyAt L LP p < keyAt R RP d)
    (hinv2 : ∀ p, 0 < p → p < lIdx → keyAt L LP (p - 1) ≠ keyAt L LP p) :
    (mergeLoop L R LP RP k i lIdx = .error .throw ∧
      ∃ p, 0 < p ∧ p < n ∧ keyAt L LP (p - 1) = keyAt L LP p) ∨
    ∃ I, mergeLoop L R LP RP k i lIdx = .ok I ∧
      (L.Nodup → I = (List.range' i k).filterMap (entry L R RP)) ∧
      (∀ d, i ≤ d → d < m → ∀ p < n, keyAt L LP p < keyAt R RP d → 0 < p →
        keyAt L LP (p - 1) ≠ keyAt L LP p) := by
  induction k generalizing i lIdx with
  | zero => exact Or.inr ⟨[], rfl, fun _ => rfl, fun d h1 h2 => by omega⟩
  | succ k ih =>
    have hi : i < m := by omega
    obtain ⟨r1, r2, r3, r4⟩ := hR.rd hi
    simp only [mergeLoop]
    rw [r1, ok_bind, r3, ok_bind]
    rcases skip_spec hL r4 (L.length - lIdx) lIdx (by rw [hL.shape.1]; omega) with ⟨e, h1⟩ | ⟨l', e1, e2, e3, e4, e5⟩
    · left
      rw [e]
      exact ⟨rfl, h1⟩
    · rw [e1, ok_bind]
      have hrk : bytesNat (R.getD (RP.getD i 0) []) = keyAt R RP i := rfl
      rw [hrk] at e4 e5
      have hlt : ∀ p < l', keyAt L LP p < keyAt R RP i := by
        intro p hp
        by_cases hp' : p < lIdx
        · exact hinv p hp' i (Nat.le_refl _) hi
        · exact (e4 p (by omega) hp).1
      have hinv' : ∀ p < l', ∀ d, i + 1 ≤ d → d < m → keyAt L LP p < keyAt R RP d := by
        intro p hp d hd1 hd2
        exact Nat.lt_of_lt_of_le (hlt p hp) (hR.mono i d (by omega) hd2)
      have hinv2' : ∀ p, 0 < p → p < l' → keyAt L LP (p - 1) ≠ keyAt L LP p := by
        intro p h0 hp
        by_cases hp' : p < lIdx
        · exact hinv2 p h0 hp'
        · exact (e4 p (by omega) hp).2 h0
      have hdup : ∀ d, i ≤ d → d < m → (∀ d, i + 1 ≤ d → d < m → ∀ p < n, keyAt L LP p < keyAt R RP d → 0 < p →
          keyAt L LP (p - 1) ≠ keyAt L LP p) → ∀ p < n, keyAt L LP p < keyAt R RP d → 0 < p →
          keyAt L LP (p - 1) ≠ keyAt L LP p := by
        intro d h1 h2 hd p hp hlt h0
        by_cases hdi : d = i
        · subst hdi
          apply hinv2' p h0
          apply Nat.lt_of_not_le
          intro hle
          have := hL.mono l' p hle hp
          have := e5 (by omega)
          omega
        · exact hd d (by omega) h2 p hp hlt h0
      rcases ih (i + 1) l' (by omega) e3 hinv' hinv2' with ⟨e6, h1⟩ | ⟨I, e6, h1, h2⟩
      · left
        by_cases hc : l' < L.length
        · obtain ⟨s1, s2, s3, s4⟩ := hL.rd (show l' < n by rw [← hL.shape.1]; exact hc)
          rw [if_pos hc, s1, ok_bind, s3, ok_bind, e6]
          exact ⟨rfl, h1⟩
        · rw [if_neg hc, e6]
          exact ⟨rfl, h1⟩
      · right
        rw [List.range'_succ]
        by_cases hc : l' < L.length
        · have hc' : l' < n := by rw [← hL.shape.1]; exact hc
          obtain ⟨s1, s2, s3, s4⟩ := hL.rd hc'
          rw [if_pos hc, s1, ok_bind, s3, ok_bind, e6, ok_bind]
          refine ⟨_, rfl, ?_, fun d h3 h4 => hdup d h3 h4 h2⟩
          intro hnd
          rw [h1 hnd]
          by_cases he : rowEqB (L.getD (LP.getD l' 0) []) (R.getD (RP.getD i 0) []) = true
          · rw [if_pos he]
            have he' := eq_of_beq he
            have : entry L R RP i = some (LP.getD l' 0, RP.getD i 0, i) := by
              unfold entry rKey
              rw [matchL_some hnd (by rw [hL.shape.1]; exact s2) he']
              rfl
            rw [List.filterMap_cons, this]
          · rw [if_neg he]
            have : entry L R RP i = none := by
              unfold entry
              rw [matchL_none]
              · rfl
              · intro a ha hk
                have ha' : a ∈ LP := hL.perm.mem (by rw [hL.len, ← hL.shape.1]; exact ha)
                obtain ⟨p, hp, rfl⟩ := List.getElem_of_mem ha'
                have hpn : p < n := by rw [← hL.len]; exact hp
                have hkp : keyAt L LP p = keyAt R RP i := by
                  unfold keyAt rowKey
                  rw [getD_eq_getElem' 0 hp, hk]; rfl
                have hle : l' ≤ p := by
                  apply Nat.le_of_not_lt
                  intro hpl
                  have := hlt p hpl
                  omega
                have h5 := e5 hc'
                have h6 := hL.mono l' p hle hpn
                have h7 : keyAt L LP l' = keyAt R RP i := by omega
                apply he
                unfold rowEqB
                rw [bytesNat_inj (by rw [s4, r4]) h7]
                simp
            rw [List.filterMap_cons, this]
        · rw [if_neg hc, e6]
          refine ⟨_, rfl, ?_, fun d h3 h4 => hdup d h3 h4 h2⟩
          intro hnd
          rw [h1 hnd]
          have : entry L R RP i = none := by
            unfold entry
            rw [matchL_none]
            · rfl
            · intro a ha hk
              have ha' : a ∈ LP := hL.perm.mem (by rw [hL.len, ← hL.shape.1]; exact ha)
              obtain ⟨p, hp, rfl⟩ := List.getElem_of_mem ha'
              have hkp : keyAt L LP p = keyAt R RP i := by
                unfold keyAt rowKey
                rw [getD_eq_getElem' 0 hp, hk]; rfl
              have := hlt p (by rw [hL.len] at hp; rw [hL.shape.1] at hc; omega)
              omega
          rw [List.filterMap_cons, this]

/-! ## Output -/

/-- The cell of a selected column in the output row `d`. -/
def outCell (L R : List Row) (RP : List Nat) (s : Side × Column) (d : Nat) : Row :=
  match matchL L (rKey R RP d) with
  | some a => s.2.data.rows.getD (if s.1 = .right then RP.getD d 0 else a) []
  | none => List.replicate (divCeil s.2.info.bits 8) 0

/-- The flag of output row `d`. -/
def outFlag (L R : List Row) (RP : List Nat) (d : Nat) : Byte :=
  if (matchL L (rKey R RP d)).isSome then 1 else 0

/-- Output table after the positions below `i`. -/
def outTable (L R : List Row) (RP : List Nat) (m : Nat) (select : List (Side × Column)) (i : Nat) : Table :=
  ⟨(List.range m).map fun d => if d < i then outFlag L R RP d else 0,
   select.map fun s => ⟨s.2.info, ⟨s.2.info.bits, divCeil s.2.info.bits 8, (List.range m).map fun d =>
      if d < i then outCell L R RP s d else List.replicate (divCeil s.2.info.bits 8) 0⟩⟩⟩

theorem map_range_set {m i : Nat} (hi : i < m) (f g : Nat → α) (x : α) (hx : x = g i) :
    ((List.range m).map fun d => if d < i then g d else f d).set i x =
      (List.range m).map fun d => if d < i + 1 then g d else f d := by
  apply List.ext_getElem
  · simp
  · intro j h1 h2
    simp only [List.getElem_set, List.getElem_map, List.getElem_range]
    by_cases h : i = j
    · subst h; simp [hx]
    · rw [if_neg h]
      by_cases h3 : j < i
      · rw [if_pos h3, if_pos (by omega)]
      · rw [if_neg h3, if_neg (by omega)]

theorem map_range_same {m i : Nat} (f g : Nat → α) (h : g i = f i) :
    ((List.range m).map fun d => if d < i then g d else f d) =
      (List.range m).map fun d => if d < i + 1 then g d else f d := by
  apply List.map_congr_left
  intro d _
  by_cases h1 : d < i
  · rw [if_pos h1, if_pos (by omega)]
  · rw [if_neg h1]
    by_cases h2 : d = i
    · subst h2; simp [h]
    · rw [if_neg (by omega)]

theorem joinRow_ok {L R : List Row} {RP : List Nat} {n m i a : Nat} {select : List (Side × Column)}
    (hi : i < m) (hm : matchL L (rKey R RP i) = some a) (ha : a < n) (hri : RP.getD i 0 < m)
    (hs : ∀ s ∈ select, (s.1 = .left ∧ s.2.WF n) ∨ (s.1 = .right ∧ s.2.WF m)) :
    joinRow (a, RP.getD i 0, i) select (outTable L R RP m select i).cols =
      .ok (outTable L R RP m select (i + 1)).cols := by
  induction select with
  | nil => rfl
  | cons s t ih =>
    simp only [outTable] at ih
    simp only [outTable, List.map_cons, joinRow, joinCell]
    have hsrc : ∃ hlt : (if s.1 = .right then RP.getD i 0 else a) < s.2.data.rows.length,
        (s.2.data.rows[(if s.1 = .right then RP.getD i 0 else a)]'hlt).length = divCeil s.2.info.bits 8 := by
      rcases hs s (by simp) with ⟨h1, h2⟩ | ⟨h1, h2⟩
      · rw [if_neg (by rw [h1]; decide)]
        exact ⟨by rw [h2.shape.1]; exact ha, h2.shape.2 _ (List.getElem_mem _)⟩
      · rw [if_pos h1]
        exact ⟨by rw [h2.shape.1]; exact hri, h2.shape.2 _ (List.getElem_mem _)⟩
    obtain ⟨hlt, hlen⟩ := hsrc
    rw [rd_ok hlt, ok_bind, rd_ok (by simpa using hi), ok_bind]
    simp only [List.getElem_map, List.getElem_range, Nat.lt_irrefl, if_false]
    rw [hlen, List.length_replicate, bne_self_eq_false, throwIf_false, ok_bind, ok_bind,
      ih (fun x hx => hs x (by simp [hx])), ok_bind]
    rw [map_range_set hi]
    unfold outCell
    rw [hm]
    simp only
    rw [getD_eq_getElem' [] hlt]

theorem joinOut_ok {L R : List Row} {RP : List Nat} {m : Nat} {select : List (Side × Column)}
    (hR : ∀ d < m, RP.getD d 0 < m)
    (hs : ∀ s ∈ select, (s.1 = .left ∧ s.2.WF L.length) ∨ (s.1 = .right ∧ s.2.WF m))
    (k i : Nat) (hk : i + k = m) :
    joinOut select ((List.range' i k).filterMap (entry L R RP)) (outTable L R RP m select i) =
      .ok (outTable L R RP m select m) := by
  induction k generalizing i with
  | zero => obtain rfl : i = m := by omega
            rfl
  | succ k ih =>
    have hi : i < m := by omega
    rw [List.range'_succ, List.filterMap_cons]
    cases hm : matchL L (rKey R RP i) with
    | none =>
      have he : entry L R RP i = none := by simp [entry, hm]
      rw [he]
      simp only
      rw [show outTable L R RP m select i = outTable L R RP m select (i + 1) from ?_]
      · exact ih (i + 1) (by omega)
      · unfold outTable
        congr 1
        · apply map_range_same
          simp [outFlag, hm]
        · apply List.map_congr_left
          intro s _
          congr 2
          apply map_range_same
          simp [outCell, hm]
    | some a =>
      have he : entry L R RP i = some (a, RP.getD i 0, i) := by simp [entry, hm]
      have ha : a < L.length := by
        have := List.mem_of_find?_eq_some hm
        simpa using this
      rw [he]
      simp only [joinOut]
      rw [joinRow_ok hi hm ha (hR i hi) hs, ok_bind,
        wr_ok (by simp [outTable, hi]), ok_bind]
      have : (outTable L R RP m select i).isActive.set i 1 = (outTable L R RP m select (i + 1)).isActive := by
        unfold outTable
        simp only
        apply map_range_set hi
        simp [outFlag, hm]
      rw [this]
      exact ih (i + 1) (by omega)

end Table
end SecJoin
