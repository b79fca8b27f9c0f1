import Verif.Table.Props
import Verif.GMW.Level
import Mathlib.Logic.Function.Basic
/-!
# C83: a share of a table tells nothing about the table

`Table::share` is modelled in `Table/Model.lean`; its randomness is an argument.
-/
namespace SecJoin
namespace Table

/-- Byte `b` of row `i` of column `j`. -/
def byteAt (cs : List Column) (j i b : Nat) : Byte := match cs[j]? with
  | none => 0
  | some c => (c.data.rows.getD i []).getD b 0

/-- The randomness of the columns moved by the difference of two tables. -/
def moveCols (t t' : Table) (rnd : Nat → Nat → Nat → Byte) : Nat → Nat → Nat → Byte := fun j i b =>
  rnd j i b ^^^ (byteAt t.cols j i b ^^^ byteAt t'.cols j i b)

/-- The randomness of the flags moved by the difference of two tables. -/
def moveFlags (t t' : Table) (rndF : Nat → Byte) : Nat → Byte := fun i => rndF i ^^^ (t.isActive.getD i 0 ^^^ t'.isActive.getD i 0)

theorem xor_move (x y r : Byte) : x ^^^ r = y ^^^ (r ^^^ (x ^^^ y)) := by
  rw [BitVec.xor_comm r, ← BitVec.xor_assoc, ← BitVec.xor_assoc, BitVec.xor_comm y x, BitVec.xor_assoc x, BitVec.xor_self, BitVec.xor_zero]

theorem xor_move2 (r d : Byte) : (r ^^^ d) ^^^ d = r := by rw [BitVec.xor_assoc, BitVec.xor_self, BitVec.xor_zero]

theorem rows_move {n c : Nat} {x y : List Row} (hx : Shape n c x) (hy : Shape n c y) {rnd rnd' : Nat → Nat → Byte}
    (h : ∀ i b, rnd' i b = rnd i b ^^^ ((x.getD i []).getD b 0 ^^^ (y.getD i []).getD b 0)) :
    List.zipWith xorRow x (randRows rnd x.length c) = List.zipWith xorRow y (randRows rnd' y.length c) := by
  rw [hx.1, hy.1]
  apply List.ext_getElem (by simp [randRows, hx.1, hy.1])
  intro i h1 h2
  have i1 : i < x.length := by simp at h1; omega
  have i2 : i < y.length := by simp at h2; omega
  have l1 := hx.2 _ (List.getElem_mem i1)
  have l2 := hy.2 _ (List.getElem_mem i2)
  simp only [List.getElem_zipWith, randRows, List.getElem_map, List.getElem_range, xorRow]
  apply List.ext_getElem (by simp [l1, l2])
  intro b g1 g2
  have b1 : b < x[i].length := by simp at g1; omega
  have b2 : b < y[i].length := by simp at g2; omega
  simp only [List.getElem_zipWith, List.getElem_map, List.getElem_range, h]
  simp only [List.getD_eq_getElem?_getD, List.getElem?_eq_getElem i1, List.getElem?_eq_getElem i2, Option.getD_some,
    List.getElem?_eq_getElem b1, List.getElem?_eq_getElem b2]
  exact xor_move ..

/-- The shares of columns of the same shape. -/
theorem shareCols_move {n : Nat} {rnd rnd' : Nat → Nat → Nat → Byte} : ∀ (cs ds : List Column) (j : Nat),
    cs.map (·.info) = ds.map (·.info) → (∀ c ∈ cs, c.WF n) → (∀ c ∈ ds, c.WF n) →
    (∀ k i b, rnd' (j + k) i b = rnd (j + k) i b ^^^ (byteAt cs k i b ^^^ byteAt ds k i b)) →
    ∀ a a' a'' b b' b'', shareCols rnd j cs = .ok (a, b) → shareCols rnd j ds = .ok (a', b') → shareCols rnd' j ds = .ok (a'', b'') →
      a = a' ∧ b = b'' := by
  intro cs
  induction cs with
  | nil =>
    intro ds j hi _ _ _ a a' a'' b b' b'' h1 h2 h3
    cases ds with
    | cons d ds => simp at hi
    | nil =>
      simp only [shareCols, Except.ok.injEq, Prod.mk.injEq] at h1 h2 h3
      rw [← h1.1, ← h1.2, ← h2.1, ← h3.2]
      exact ⟨rfl, rfl⟩
  | cons c cs ih =>
    intro ds j hi hc hd hr a a' a'' b b' b'' h1 h2 h3
    cases ds with
    | nil => simp at hi
    | cons d ds =>
      simp only [List.map_cons, List.cons.injEq] at hi
      have wc := hc c (by simp)
      have wd := hd d (by simp)
      simp only [shareCols, Gmw.bind_ok_iff, Prod.exists, Except.ok.injEq, Prod.mk.injEq] at h1 h2 h3
      obtain ⟨x0, x1, e1, r0, r1, f1, rfl, rfl⟩ := h1
      obtain ⟨y0, y1, e2, s0, s1, f2, rfl, rfl⟩ := h2
      obtain ⟨z0, z1, e3, u0, u1, f3, rfl, rfl⟩ := h3
      obtain ⟨q1, q2⟩ := ih ds (j + 1) hi.2 (fun c h => hc c (by simp [h])) (fun c h => hd c (by simp [h])) (by
        intro k i b
        have := hr (k + 1) i b
        rw [show j + 1 + k = j + (k + 1) by omega]
        simpa [byteAt] using this) _ _ _ _ _ _ f1 f2 f3
      have hb : c.data.bits = d.data.bits := by rw [wc.bits, wd.bits, hi.1]
      have hl : c.data.rows.length = d.data.rows.length := by rw [wc.shape.1, wd.shape.1]
      have hcol : c.data.cols = divCeil c.data.bits 8 := by rw [wc.cols, wc.bits]
      have hcol' : d.data.cols = divCeil d.data.bits 8 := by rw [wd.cols, wd.bits]
      have hrow := rows_move (n := n) (c := divCeil c.info.bits 8) wc.shape (by rw [hi.1]; exact wd.shape)
        (rnd := rnd j) (rnd' := rnd' j) (by
          intro i b
          have := hr 0 i b
          simpa [byteAt] using this)
      rw [← wc.bits] at hrow
      simp only [shareBin] at e1 e2 e3
      rw [if_neg (by simpa using hcol)] at e1
      rw [if_neg (by simpa using hcol')] at e2 e3
      rw [← hb, ← hl] at e2
      rw [← hb, ← hrow] at e3
      simp only [Gmw.bind_ok_iff, Except.ok.injEq, Prod.mk.injEq] at e1 e2 e3
      obtain ⟨m0, g0, m1, g1, rfl, rfl⟩ := e1
      obtain ⟨m0', g0', m1', g1', rfl, rfl⟩ := e2
      obtain ⟨m0'', g0'', m1'', g1'', rfl, rfl⟩ := e3
      rw [g0] at g0'
      rw [g1] at g1''
      simp only [Except.ok.injEq] at g0' g1''
      rw [q1, q2, g0', g1'', hi.1]
      exact ⟨rfl, rfl⟩

/-- C83, sharing: for tables of the same shape (columns, rows, with or without flags) the first share is the same for the same randomness,
and the second one is the same for the randomness moved by the difference of the tables. Moving is its own inverse, so both tables
give the second share for equally many choices of the randomness: neither share alone depends on the content of the table. -/
theorem C83_share {t t' : Table} {n : Nat} (ht : t.WF n) (ht' : t'.WF n) (hc : t.Clean n) (hc' : t'.Clean n)
    (hi : t.getColumnInfo = t'.getColumnInfo) (hf : t.isActive.length = t'.isActive.length) :
    ∃ (φ : (Nat → Nat → Nat → Byte) → (Nat → Nat → Nat → Byte)) (ψ : (Nat → Byte) → Nat → Byte),
      Function.Involutive φ ∧ Function.Involutive ψ ∧
      ∀ rnd rndF, ∃ s0 s1 r0 r1, share rnd rndF t = .ok (s0, s1) ∧ share rnd rndF t' = .ok (s0, r1) ∧
        share (φ rnd) (ψ rndF) t' = .ok (r0, s1) := by
  refine ⟨moveCols t t', moveFlags t t', ?_, ?_, ?_⟩
  · intro r; funext j i b; exact xor_move2 ..
  · intro r; funext i; exact xor_move2 ..
  intro rnd rndF
  obtain ⟨s0, s1, e1, -⟩ := C09_table ht hc rnd rndF
  obtain ⟨u0, u1, e2, -⟩ := C09_table ht' hc' rnd rndF
  obtain ⟨v0, v1, e3, -⟩ := C09_table ht' hc' (moveCols t t' rnd) (moveFlags t t' rndF)
  refine ⟨s0, s1, v0, u1, e1, ?_, ?_⟩
  all_goals
    have h1 := e1
    have h2 := e2
    have h3 := e3
    simp only [share, Gmw.bind_ok_iff, Prod.exists, Except.ok.injEq, Prod.mk.injEq] at h1 h2 h3
    obtain ⟨a, b, f1, rfl, rfl⟩ := h1
    obtain ⟨a', b', f2, rfl, rfl⟩ := h2
    obtain ⟨a'', b'', f3, rfl, rfl⟩ := h3
    obtain ⟨q1, q2⟩ := shareCols_move (rnd' := moveCols t t' rnd) t.cols t'.cols 0 hi ht.col ht'.col
      (fun k i b => by simp only [moveCols, Nat.zero_add]) _ _ _ _ _ _ f1 f2 f3
  · rw [e2, q1, hf]
  · rw [e3, q2, ← hf]
    congr 3
    apply List.ext_getElem (by simp [hf])
    intro i i1 i2
    have k1 : i < t.isActive.length := by simp at i2; omega
    have k2 : i < t'.isActive.length := by omega
    simp only [List.getElem_zipWith, List.getElem_map, List.getElem_range, moveFlags, List.getD_eq_getElem?_getD,
      List.getElem?_eq_getElem k1, List.getElem?_eq_getElem k2, Option.getD_some]
    rw [BitVec.xor_comm _ t'.isActive[i], BitVec.xor_comm _ t.isActive[i]]
    exact (xor_move ..).symm

/-- The example table and one of the same shape with other cells and another active row. -/
example : let t' : Table := ⟨[0, 1, 1], [⟨exTable.cols[0].info, ⟨12, 2, [[9, 9], [0, 1], [255, 15]]⟩⟩, exTable.cols[1]]⟩
    exTable.getColumnInfo = t'.getColumnInfo ∧ exTable.isActive.length = t'.isActive.length ∧ t' ≠ exTable := by decide

end Table
end SecJoin
