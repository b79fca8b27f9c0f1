import Verif.AggTree.Share
import Verif.AggTree.SecureProps
import Verif.GMW.MapProps
/-!
# Lemmas on the aggregation tree on shares
-/
namespace SecJoin
namespace Agg
open Gmw.Wires (Col Mem Env Cir mapCall leafCall Computes ColsOk colBit C72_map C72_map_copy)

/-! ## Typed columns -/

def Cell.bit : Cell w → Nat → Bool
  | .v x, j => x.getLsbD j
  | .b x, _ => x

def Cell.width : Cell w → Nat
  | .v _ => w
  | .b _ => 1

def Cell.xor : Cell w → Cell w → Cell w
  | .v x, .v y => .v (x ^^^ y)
  | .b x, .b y => .b (x ^^ y)
  | a, _ => a

def TCol.cell (r : Nat) : TCol w → Cell w
  | .v l => .v (l.getD r 0)
  | .b l => .b (l.getD r false)

/-- A column of `n` rows for a port. -/
def TCol.Is (n : Nat) : Port → TCol w → Prop
  | .v _, .v l => l.length = n
  | .b _, .b l => l.length = n
  | _, _ => False

/-- The circuit of the library does what the steps of the circuit say, whatever the other wires hold. -/
structure CirOk (k : Circ) (w : Nat) (f : BitVec w → BitVec w → BitVec w) (c : Cir) : Prop where
  ins : c.ins.map List.length = k.ins.map (Port.bits w)
  outs : c.outs.map List.length = k.outs.map (Port.bits w)
  computes : ∃ F, Computes c F ∧ ∀ (x : Nat → Nat → Bool) (inp : List (Cell w)),
    (∀ (i : Nat) (cell : Cell w), inp[i]? = some cell → ∀ j < cell.width, x i j = cell.bit j) → ∀ scratch s out, k.run f scratch s inp = .ok out →
      ∀ (i : Nat) (cell : Cell w), out[i]? = some cell → ∀ j < cell.width, F x i j = cell.bit j

theorem getLsbD_mkVec (w : Nat) (g : Nat → Bool) {j : Nat} (hj : j < w) : (mkVec w g).getLsbD j = g j := by
  unfold mkVec
  rw [BitVec.getLsbD_cast, BitVec.getLsbD_ofBoolListLE]
  simp [hj]

theorem map_get {a : List (List Nat)} {b : List Port} {w : Nat} (h : a.map List.length = b.map (Port.bits w)) :
    a.length = b.length ∧ ∀ (i : Nat) (x : List Nat), a[i]? = some x → ∃ p : Port, b[i]? = some p ∧ x.length = p.bits w := by
  have hl := congrArg List.length h
  rw [List.length_map, List.length_map] at hl
  refine ⟨hl, fun i x hx => ?_⟩
  have hi : i < b.length := by rw [← hl]; exact (List.getElem?_eq_some_iff.1 hx).1
  refine ⟨b[i], List.getElem?_eq_getElem hi, ?_⟩
  have := congrArg (fun l : List Nat => l[i]?) h
  simp only [List.getElem?_map, hx, List.getElem?_eq_getElem hi, Option.map_some] at this
  exact Option.some.inj this

theorem forall2_get {R : α → β → Prop} {a : List α} {b : List β} (h : List.Forall₂ R a b) {i : Nat} {x : α} (hx : a[i]? = some x) :
    ∃ y, b[i]? = some y ∧ R x y := by
  induction h generalizing i with
  | nil => simp at hx
  | cons h _ ih =>
    cases i with
    | zero => simp only [List.getElem?_cons_zero, Option.some.injEq] at hx; subst hx; exact ⟨_, rfl, h⟩
    | succ i => exact ih (by simpa using hx)

theorem forall2_of_get {R : α → β → Prop} : ∀ {a : List α} {b : List β}, a.length = b.length →
    (∀ (i : Nat) (x : α) (y : β), a[i]? = some x → b[i]? = some y → R x y) → List.Forall₂ R a b
  | [], [], _, _ => .nil
  | x :: a, y :: b, hl, h => .cons (h 0 x y rfl rfl) (forall2_of_get (by simpa using hl) fun i x y hx hy => h (i + 1) x y hx hy)

theorem toCol_ok {n : Nat} {p : Port} {c : TCol w} (h : TCol.Is n p c) : c.toCol.bits = p.bits w ∧ c.toCol.rows.length = n := by
  cases p <;> cases c <;> simp_all [TCol.Is, TCol.toCol, Port.bits]

theorem toCol_bit {n : Nat} {p : Port} {c : TCol w} (h : TCol.Is n p c) {r : Nat} (hr : r < n) {j : Nat} (hj : j < (c.cell r).width) :
    (c.toCol.rows.getD r fun _ => false) j = (c.cell r).bit j := by
  cases p <;> cases c <;> simp_all [TCol.Is, TCol.toCol, TCol.cell, Cell.bit, Cell.width, List.getD_eq_getElem?_getD]

theorem cols_ok {n : Nat} {k : List Port} {bs : List (List Nat)} {cols : List (TCol w)} (hb : bs.map List.length = k.map (Port.bits w))
    (h : List.Forall₂ (TCol.Is n) k cols) : ColsOk n bs (cols.map TCol.toCol) := by
  obtain ⟨b1, b2⟩ := map_get hb
  refine ⟨by rw [List.length_map, b1, h.length_eq], fun i b hi => ?_⟩
  obtain ⟨p, p1, p2⟩ := b2 i b hi
  obtain ⟨c, c1, c2⟩ := forall2_get h p1
  rw [List.getD_eq_getElem?_getD, List.getElem?_map, c1, Option.map_some, Option.getD_some, p2]
  exact toCol_ok c2

/-- What is read from the outputs. -/
theorem ofCols_ok {n : Nat} {k : List Port} {bs : List (List Nat)} {cs : List Col} (hb : bs.map List.length = k.map (Port.bits w))
    (h : ColsOk n bs cs) : List.Forall₂ (TCol.Is n) k (ofCols w k cs) ∧ ∀ (i : Nat) (p : Port), k[i]? = some p → ∀ r < n,
      ∃ cell, ((ofCols w k cs).map (TCol.cell r))[i]? = some cell ∧ (match p with
        | .v _ => ∃ y, cell = .v y ∧ ∀ j < w, y.getLsbD j = colBit cs i r j
        | .b _ => cell = .b (colBit cs i r 0)) := by
  obtain ⟨b1, b2⟩ := map_get hb
  have hl : (ofCols w k cs).length = k.length := by simp [ofCols, h.len, b1]
  have hg : ∀ i p, k[i]? = some p → (ofCols w k cs)[i]? = some (ofCol w p (cs.getD i ⟨0, []⟩)) ∧ (cs.getD i ⟨0, []⟩).rows.length = n := by
    intro i p hp
    have hi : i < k.length := (List.getElem?_eq_some_iff.1 hp).1
    have hic : i < cs.length := by rw [h.len, b1]; exact hi
    refine ⟨?_, (h.col i bs[i] (List.getElem?_eq_getElem (by rw [b1]; exact hi))).2⟩
    rw [ofCols, List.getElem?_zipWith, hp, List.getD_eq_getElem?_getD, List.getElem?_eq_getElem hic]
    rfl
  refine ⟨forall2_of_get hl.symm fun i p c hp hc => ?_, fun i p hp r hr => ?_⟩
  · obtain ⟨g1, g2⟩ := hg i p hp
    rw [g1] at hc
    cases hc
    cases p <;> simp [ofCol, TCol.Is, ← g2]
  · obtain ⟨g1, g2⟩ := hg i p hp
    rw [List.getElem?_map, g1]
    refine ⟨_, rfl, ?_⟩
    have hr' : r < (cs.getD i ⟨0, []⟩).rows.length := by rw [g2]; exact hr
    cases p with
    | v q =>
      refine ⟨_, rfl, fun j hj => ?_⟩
      rw [List.getD_eq_getElem?_getD, List.getElem?_map, List.getElem?_eq_getElem hr', Option.map_some, Option.getD_some, getLsbD_mkVec w _ hj, colBit,
        List.getD_eq_getElem?_getD (l := (cs.getD i ⟨0, []⟩).rows), List.getElem?_eq_getElem hr']
      rfl
    | b q =>
      simp only [ofCol, TCol.cell, colBit]
      rw [List.getD_eq_getElem?_getD, List.getElem?_map, List.getElem?_eq_getElem hr', Option.map_some, Option.getD_some,
        List.getD_eq_getElem?_getD (l := (cs.getD i ⟨0, []⟩).rows), List.getElem?_eq_getElem hr']
      rfl

/-- The values that both parties hold together in row `r`. -/
def cellsX (c0 c1 : List (TCol w)) (r : Nat) : List (Cell w) := List.zipWith Cell.xor (c0.map (TCol.cell r)) (c1.map (TCol.cell r))

theorem cellsX_bit {n : Nat} {k : List Port} {c0 c1 : List (TCol w)} (h0 : List.Forall₂ (TCol.Is n) k c0) (h1 : List.Forall₂ (TCol.Is n) k c1) {r : Nat}
    (hr : r < n) {i : Nat} {cell : Cell w} (hc : (cellsX c0 c1 r)[i]? = some cell) {j : Nat} (hj : j < cell.width) :
    (colBit (c0.map TCol.toCol) i r j ^^ colBit (c1.map TCol.toCol) i r j) = cell.bit j := by
  have hi : i < k.length := by
    have := (List.getElem?_eq_some_iff.1 hc).1
    simp only [cellsX, List.length_zipWith, List.length_map] at this
    rw [h0.length_eq]
    omega
  obtain ⟨a, a1, a2⟩ := forall2_get h0 (List.getElem?_eq_getElem hi)
  obtain ⟨b, b1, b2⟩ := forall2_get h1 (List.getElem?_eq_getElem hi)
  rw [cellsX, List.getElem?_zipWith, List.getElem?_map, List.getElem?_map, a1, b1] at hc
  simp only [Option.map_some, Option.some.injEq] at hc
  subst hc
  unfold colBit
  rw [List.getD_eq_getElem?_getD (l := c0.map TCol.toCol), List.getElem?_map, a1, List.getD_eq_getElem?_getD (l := c1.map TCol.toCol), List.getElem?_map, b1]
  simp only [Option.map_some, Option.getD_some]
  generalize k[i] = p at a2 b2
  cases p with
  | v q =>
    cases a with
    | b l => exact a2.elim
    | v l =>
      cases b with
      | b l => exact b2.elim
      | v l' =>
        rw [toCol_bit a2 hr hj, toCol_bit b2 hr hj]
        simp [TCol.cell, Cell.bit, Cell.xor]
  | b q =>
    cases a with
    | v l => exact a2.elim
    | b l =>
      cases b with
      | v l => exact b2.elim
      | b l' =>
        rw [toCol_bit a2 hr hj, toCol_bit b2 hr hj]
        simp [TCol.cell, Cell.bit, Cell.xor]

theorem run_outs {k : Circ} {f : BitVec w → BitVec w → BitVec w} {scratch : BitVec w} {s : Wires w} {inp out : List (Cell w)}
    (h : k.run f scratch s inp = .ok out) : out.length = k.outs.length ∧ ∀ (i : Nat) (p : Port), k.outs[i]? = some p → ∃ cell, out[i]? = some cell ∧ (match p with
      | .v _ => ∃ y, cell = .v y
      | .b _ => ∃ y, cell = .b y) := by
  unfold Circ.run at h
  cases hl : loadPorts k.ins inp s with
  | error e => rw [hl] at h; cases h
  | ok s' =>
    rw [hl, ok_bind] at h
    cases h
    refine ⟨by simp [readPorts], fun i p hp => ?_⟩
    rw [readPorts, List.getElem?_map, hp]
    cases p <;> exact ⟨_, rfl, _, rfl⟩

/-- The outputs of an evaluation, in one row. -/
theorem typed_row {k : Circ} {f : BitVec w → BitVec w → BitVec w} {c : Cir} {F : (Nat → Nat → Bool) → Nat → Nat → Bool} {n : Nat}
    (ho : c.outs.map List.length = k.outs.map (Port.bits w)) {c0 c1 : List (TCol w)}
    (h0 : List.Forall₂ (TCol.Is n) k.ins c0) (h1 : List.Forall₂ (TCol.Is n) k.ins c1)
    (hF : ∀ (x : Nat → Nat → Bool) (inp : List (Cell w)),
      (∀ (i : Nat) (cell : Cell w), inp[i]? = some cell → ∀ j < cell.width, x i j = cell.bit j) → ∀ scratch s out, k.run f scratch s inp = .ok out →
        ∀ (i : Nat) (cell : Cell w), out[i]? = some cell → ∀ j < cell.width, F x i j = cell.bit j)
    {o0 o1 : List Col} (g0 : ColsOk n c.outs o0) (g1 : ColsOk n c.outs o1)
    (hx : ∀ (i : Nat) (b : List Nat), c.outs[i]? = some b → ∀ r < n, ∀ j < b.length, (colBit o0 i r j ^^ colBit o1 i r j) =
      F (fun i j => colBit (c0.map TCol.toCol) i r j ^^ colBit (c1.map TCol.toCol) i r j) i j) {r : Nat} (hr : r < n)
    {scratch : BitVec w} {s : Wires w} {out : List (Cell w)} (hrun : k.run f scratch s (cellsX c0 c1 r) = .ok out) :
    cellsX (ofCols w k.outs o0) (ofCols w k.outs o1) r = out := by
  obtain ⟨b1, b2⟩ := map_get ho
  obtain ⟨e1, e2⟩ := run_outs hrun
  obtain ⟨f0, k0⟩ := ofCols_ok ho g0
  obtain ⟨f1, k1⟩ := ofCols_ok ho g1
  have hval := hF _ _ (fun i cell hc j hj => cellsX_bit h0 h1 hr hc hj) scratch s out hrun
  apply List.ext_getElem?
  intro i
  by_cases hi : i < k.outs.length
  · have hp := List.getElem?_eq_getElem hi
    have hb := List.getElem?_eq_getElem (show i < c.outs.length by rw [b1]; exact hi)
    obtain ⟨p, p1, p2⟩ := b2 i _ hb
    obtain ⟨y, y1, y2⟩ := e2 i p p1
    obtain ⟨a, a1, a2⟩ := k0 i p p1 r hr
    obtain ⟨b, b1, b2⟩ := k1 i p p1 r hr
    rw [cellsX, List.getElem?_zipWith, a1, b1, y1]
    simp only [Option.some.injEq]
    cases p with
    | v q =>
      obtain ⟨a, rfl, a2⟩ := a2
      obtain ⟨b, rfl, b2⟩ := b2
      obtain ⟨y, rfl⟩ := y2
      show Cell.v (a ^^^ b) = _
      congr 1
      apply BitVec.eq_of_getLsbD_eq
      intro j hj
      rw [BitVec.getLsbD_xor, a2 j hj, b2 j hj, hx i _ hb r hr j (by rw [p2]; exact hj), hval i _ y1 j hj]
      rfl
    | b q =>
      obtain ⟨y, rfl⟩ := y2
      rw [a2, b2]
      show Cell.b _ = _
      congr 1
      rw [hx i _ hb r hr 0 (by rw [p2]; exact Nat.one_pos), hval i _ y1 0 Nat.one_pos]
      rfl
  · have l0 : (ofCols w k.outs o0).length = k.outs.length := f0.length_eq.symm
    rw [List.getElem?_eq_none (by simp [cellsX, l0]; omega), List.getElem?_eq_none (by omega)]

/-- One evaluation on mapped matrices. -/
theorem typed_map {k : Circ} {f : BitVec w → BitVec w → BitVec w} {c : Cir} {n : Nat} (hn : 0 < n) (hk : CirOk k w f c) {E : Env} {M0 M1 : Mem}
    (hE : E.Ok n c) (hM0 : M0.Fits n) (hM1 : M1.Fits n) {c0 c1 : List (TCol w)} (h0 : List.Forall₂ (TCol.Is n) k.ins c0)
    (h1 : List.Forall₂ (TCol.Is n) k.ins c1) :
    ∃ o0 o1, mapCall E M0 M1 n c (k.outs.map (Port.bits w)) (c0.map TCol.toCol) (c1.map TCol.toCol) = .ok (o0, o1) ∧
      List.Forall₂ (TCol.Is n) k.outs (ofCols w k.outs o0) ∧ List.Forall₂ (TCol.Is n) k.outs (ofCols w k.outs o1) ∧
      ∀ r < n, ∀ scratch s out, k.run f scratch s (cellsX c0 c1 r) = .ok out → cellsX (ofCols w k.outs o0) (ofCols w k.outs o1) r = out := by
  obtain ⟨F, hF, hv⟩ := hk.computes
  obtain ⟨o0, o1, e, g0, g1, gx⟩ := C72_map hn hF (cols_ok hk.ins h0) (cols_ok hk.ins h1) hM0 hM1 hE
  rw [hk.outs] at e
  exact ⟨o0, o1, e, (ofCols_ok hk.outs g0).1, (ofCols_ok hk.outs g1).1, fun r hr scratch s out hrun => typed_row hk.outs h0 h1 hv g0 g1 gx hr hrun⟩

/-- One evaluation with copied outputs. -/
theorem typed_copy {k : Circ} {f : BitVec w → BitVec w → BitVec w} {c : Cir} {n : Nat} (hn : 0 < n) (hk : CirOk k w f c) {E : Env} {M0 M1 : Mem}
    (hE : E.Ok n c) (hM0 : M0.Fits n) (hM1 : M1.Fits n) {c0 c1 : List (TCol w)} (h0 : List.Forall₂ (TCol.Is n) k.ins c0)
    (h1 : List.Forall₂ (TCol.Is n) k.ins c1) (hcon : ∀ b ∈ c.outs, b ≠ [] ∧ ∀ j, (h : j + 1 < b.length) → b[j + 1] = b[j] + 1) :
    ∃ o0 o1, leafCall E M0 M1 n c (k.outs.map (Port.bits w)) (c0.map TCol.toCol) (c1.map TCol.toCol) = .ok (o0, o1) ∧
      List.Forall₂ (TCol.Is n) k.outs (ofCols w k.outs o0) ∧ List.Forall₂ (TCol.Is n) k.outs (ofCols w k.outs o1) ∧
      ∀ r < n, ∀ scratch s out, k.run f scratch s (cellsX c0 c1 r) = .ok out → cellsX (ofCols w k.outs o0) (ofCols w k.outs o1) r = out := by
  obtain ⟨F, hF, hv⟩ := hk.computes
  obtain ⟨o0, o1, e, g0, g1, gx⟩ := C72_map_copy hn hF (cols_ok hk.ins h0) (cols_ok hk.ins h1) hM0 hM1 hE hcon
  rw [hk.outs] at e
  exact ⟨o0, o1, e, (ofCols_ok hk.outs g0).1, (ofCols_ok hk.outs g1).1, fun r hr scratch s out hrun => typed_row hk.outs h0 h1 hv g0 g1 gx hr hrun⟩

end Agg
end SecJoin
