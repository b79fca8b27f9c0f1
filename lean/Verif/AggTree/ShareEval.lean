import Verif.AggTree.ShareLemmas
/-!
# One evaluation of each circuit of the tree on shares
-/
namespace SecJoin
namespace Agg
open Gmw.Wires (Col Mem Env Cir mapCall leafCall)

/-- The halves of the tree. -/
inductive H | pre | suf

def AggType.has (t : AggType) : H → Bool
  | .pre => t.hasPre
  | .suf => t.hasSuf

def Lv.get (h : H) (l : Lv α) : List α :=
  match h with
  | .pre => l.pre
  | .suf => l.suf

def dirOf (f : V → V → V) : H → Dir V
  | .pre => prefixDir f
  | .suf => suffixDir f

def xorN (a b : BitVec w × Bool) : BitVec w × Bool := (a.1 ^^^ b.1, a.2 ^^ b.2)

/-- The nodes that both parties hold together. -/
abbrev X (a b : List (BitVec w × Bool)) : List (BitVec w × Bool) := List.zipWith xorN a b
/-- The values. -/
abbrev XV (a b : List (BitVec w)) : List (BitVec w) := List.zipWith (· ^^^ ·) a b

/-- All present halves have `n` entries. -/
def Lv.Len (t : AggType) (n : Nat) (l : Lv α) : Prop := ∀ h, t.has h = true → (l.get h).length = n

def Sp.Len (t : AggType) (n : Nat) (c : Sp α) : Prop := c.1.Len t n ∧ c.2.Len t n

def nodeX (a b : Lv (BitVec w × Bool)) (r : Nat) : Node (BitVec w) :=
  (xorN (a.pre.getD r (0, false)) (b.pre.getD r (0, false)), xorN (a.suf.getD r (0, false)) (b.suf.getD r (0, false)))

def valX (a b : Lv (BitVec w)) (r : Nat) : BitVec w × BitVec w := (a.pre.getD r 0 ^^^ b.pre.getD r 0, a.suf.getD r 0 ^^^ b.suf.getD r 0)

theorem getD_fst (l : List (BitVec w × Bool)) (r : Nat) : (l.map (·.1)).getD r 0 = (l.getD r (0, false)).1 := by
  rw [List.getD_eq_getElem?_getD, List.getD_eq_getElem?_getD, List.getElem?_map]
  cases l[r]? <;> rfl

theorem getD_snd (l : List (BitVec w × Bool)) (r : Nat) : (l.map (·.2)).getD r false = (l.getD r (0, false)).2 := by
  rw [List.getD_eq_getElem?_getD, List.getD_eq_getElem?_getD, List.getElem?_map]
  cases l[r]? <;> rfl

theorem cells_up (t : AggType) (l0 r0 l1 r1 : Lv (BitVec w × Bool)) (r : Nat) :
    cellsX (upCols t l0 r0) (upCols t l1 r1) r = upInputs t (nodeX l0 l1 r) (nodeX r0 r1 r) := by
  cases t <;> simp only [cellsX, upCols, upInputs, nodeX, xorN, AggType.hasPre, AggType.hasSuf, optL, if_true, Bool.false_eq_true, if_false, List.append_nil,
    List.nil_append, List.cons_append, List.map_cons, List.map_nil, List.zipWith_cons_cons, List.zipWith_nil_left, TCol.cell, Cell.xor, getD_fst, getD_snd]

theorem cells_down (t : AggType) (l0 r0 l1 r1 : Lv (BitVec w × Bool)) (p0 p1 : Lv (BitVec w)) (r : Nat) :
    cellsX (downCols t l0 r0 p0) (downCols t l1 r1 p1) r = downInputs t (nodeX l0 l1 r) (nodeX r0 r1 r) (valX p0 p1 r) := by
  cases t <;> simp only [cellsX, downCols, downInputs, nodeX, valX, xorN, AggType.hasPre, AggType.hasSuf, optL, if_true, Bool.false_eq_true, if_false,
    List.append_nil, List.nil_append, List.cons_append, List.map_cons, List.map_nil, List.zipWith_cons_cons, List.zipWith_nil_left, TCol.cell, Cell.xor,
    getD_fst, getD_snd]

theorem cells_leaf (t : AggType) (l0 r0 l1 r1 : Lv (BitVec w × Bool)) (pl0 pr0 pl1 pr1 : Lv (BitVec w)) (r : Nat) :
    cellsX (leafCols t l0 r0 pl0 pr0) (leafCols t l1 r1 pl1 pr1) r =
      leafInputs t (nodeX l0 l1 r) (nodeX r0 r1 r) (valX pl0 pl1 r) (valX pr0 pr1 r) := by
  cases t <;> simp only [cellsX, leafCols, leafInputs, nodeX, valX, xorN, AggType.hasPre, AggType.hasSuf, optL, if_true, Bool.false_eq_true, if_false,
    List.append_nil, List.nil_append, List.cons_append, List.map_cons, List.map_nil, List.zipWith_cons_cons, List.zipWith_nil_left, TCol.cell, Cell.xor,
    getD_fst, getD_snd]

theorem is_v {n : Nat} {q : Reg} {c : TCol w} (h : TCol.Is n (.v q) c) : ∃ l, c = .v l ∧ l.length = n := by
  cases c with
  | v l => exact ⟨l, rfl, h⟩
  | b l => exact h.elim

theorem is_b {n : Nat} {q : Reg} {c : TCol w} (h : TCol.Is n (.b q) c) : ∃ l, c = .b l ∧ l.length = n := by
  cases c with
  | v l => exact h.elim
  | b l => exact ⟨l, rfl, h⟩

/-- Lists that agree in every row. -/
theorem getD_eq_getElem' {l : List α} {d : α} {r : Nat} (h : r < l.length) : l.getD r d = l[r] := by
  rw [List.getD_eq_getElem?_getD, List.getElem?_eq_getElem h]
  rfl

theorem up_list {n : Nat} {a0 a1 : List (BitVec w)} {b0 b1 : List Bool} {l0 l1 r0 r1 : List (BitVec w × Bool)}
    {g : BitVec w × Bool → BitVec w × Bool → BitVec w × Bool} (ha0 : a0.length = n) (ha1 : a1.length = n) (hb0 : b0.length = n) (hb1 : b1.length = n)
    (hl0 : l0.length = n) (hl1 : l1.length = n) (hr0 : r0.length = n) (hr1 : r1.length = n)
    (h : ∀ r < n, (a0.getD r 0 ^^^ a1.getD r 0, b0.getD r false ^^ b1.getD r false) =
      g (xorN (l0.getD r (0, false)) (l1.getD r (0, false))) (xorN (r0.getD r (0, false)) (r1.getD r (0, false)))) :
    X (List.zip a0 b0) (List.zip a1 b1) = List.zipWith g (X l0 l1) (X r0 r1) := by
  apply List.ext_getElem
  · simp [*]
  · intro r h1 h2
    have hr : r < n := by simpa [*] using h1
    have := h r hr
    rw [getD_eq_getElem' (by omega), getD_eq_getElem' (by omega), getD_eq_getElem' (by omega), getD_eq_getElem' (by omega), getD_eq_getElem' (by omega),
      getD_eq_getElem' (by omega), getD_eq_getElem' (by omega), getD_eq_getElem' (by omega)] at this
    simp only [List.getElem_zipWith, List.getElem_zip]
    rw [← this]
    rfl

theorem down_list {n : Nat} {a0 a1 p0 p1 : List (BitVec w)} {l0 l1 r0 r1 : List (BitVec w × Bool)} {π : BitVec w × BitVec w → BitVec w}
    {g : BitVec w → BitVec w × Bool → BitVec w × Bool → BitVec w × BitVec w} (ha0 : a0.length = n) (ha1 : a1.length = n) (hp0 : p0.length = n)
    (hp1 : p1.length = n) (hl0 : l0.length = n) (hl1 : l1.length = n) (hr0 : r0.length = n) (hr1 : r1.length = n)
    (h : ∀ r < n, a0.getD r 0 ^^^ a1.getD r 0 =
      π (g (p0.getD r 0 ^^^ p1.getD r 0) (xorN (l0.getD r (0, false)) (l1.getD r (0, false))) (xorN (r0.getD r (0, false)) (r1.getD r (0, false))))) :
    XV a0 a1 = (List.zipWith (fun v ab => g v ab.1 ab.2) (XV p0 p1) (List.zip (X l0 l1) (X r0 r1))).map π := by
  apply List.ext_getElem
  · simp [*]
  · intro r h1 h2
    have hr : r < n := by simpa [*] using h1
    have := h r hr
    rw [getD_eq_getElem' (by omega), getD_eq_getElem' (by omega), getD_eq_getElem' (by omega), getD_eq_getElem' (by omega), getD_eq_getElem' (by omega),
      getD_eq_getElem' (by omega), getD_eq_getElem' (by omega), getD_eq_getElem' (by omega)] at this
    simp only [List.getElem_zipWith, List.getElem_zip, List.getElem_map]
    exact this

section
variable {w : Nat} {t : AggType} {f : BitVec w → BitVec w → BitVec w} {n : Nat} {E : Env} {M0 M1 : Mem} {c : Cir}

theorem upCols_is {l r : Lv (BitVec w × Bool)} (hl : l.Len t n) (hr : r.Len t n) : List.Forall₂ (TCol.Is n) (upstreamCir t).ins (upCols t l r) := by
  have lp := hl .pre
  have ls := hl .suf
  have rp := hr .pre
  have rs := hr .suf
  cases t <;> simp_all [upstreamCir, upCols, optL, AggType.hasPre, AggType.hasSuf, TCol.Is, AggType.has, Lv.get]

theorem downCols_is {l r : Lv (BitVec w × Bool)} {p : Lv (BitVec w)} (hl : l.Len t n) (hr : r.Len t n) (hp : p.Len t n) :
    List.Forall₂ (TCol.Is n) (downstreamCir t).ins (downCols t l r p) := by
  have lp := hl .pre
  have ls := hl .suf
  have rp := hr .pre
  have rs := hr .suf
  have pp := hp .pre
  have ps := hp .suf
  cases t <;> simp_all [downstreamCir, downCols, optL, AggType.hasPre, AggType.hasSuf, TCol.Is, AggType.has, Lv.get]

theorem leafCols_is {l r : Lv (BitVec w × Bool)} {p q : Lv (BitVec w)} (hl : l.Len t n) (hr : r.Len t n) (hp : p.Len t n) (hq : q.Len t n) :
    List.Forall₂ (TCol.Is n) (leafCircuit t).ins (leafCols t l r p q) := by
  have lp := hl .pre
  have ls := hl .suf
  have rp := hr .pre
  have rs := hr .suf
  have pp := hp .pre
  have ps := hp .suf
  have qp := hq .pre
  have qs := hq .suf
  cases t <;> simp_all [leafCircuit, leafCols, optL, AggType.hasPre, AggType.hasSuf, TCol.Is, AggType.has, Lv.get]

/-- What the upstream evaluation gives. -/
def GUpOk (t : AggType) (f : BitVec w → BitVec w → BitVec w) (n : Nat) (c0 c1 : Sp (BitVec w × Bool)) (p0 p1 : Lv (BitVec w × Bool)) : Prop :=
  p0.Len t n ∧ p1.Len t n ∧ ∀ h, t.has h = true → X (p0.get h) (p1.get h) =
    List.zipWith (dirOf f h).up (X (c0.1.get h) (c1.1.get h)) (X (c0.2.get h) (c1.2.get h))

theorem up_ok (hn : 0 < n) (hk : CirOk (upstreamCir t) w f c) (hE : E.Ok n c) (hM0 : M0.Fits n) (hM1 : M1.Fits n) {c0 c1 : Sp (BitVec w × Bool)}
    (h0 : c0.Len t n) (h1 : c1.Len t n) : ∃ o0 o1, mapCall E M0 M1 n c ((upstreamCir t).outs.map (Port.bits w))
        ((upCols t c0.1 c0.2).map TCol.toCol) ((upCols t c1.1 c1.2).map TCol.toCol) = .ok (o0, o1) ∧
      GUpOk t f n c0 c1 (upRead t (ofCols w (upstreamCir t).outs o0)) (upRead t (ofCols w (upstreamCir t).outs o1)) := by
  obtain ⟨o0, o1, e, k0, k1, kx⟩ := typed_map hn hk hE hM0 hM1 (upCols_is h0.1 h0.2) (upCols_is h1.1 h1.2)
  refine ⟨o0, o1, e, ?_⟩
  have row : ∀ r < n, cellsX (ofCols w (upstreamCir t).outs o0) (ofCols w (upstreamCir t).outs o1) r =
      optL t.hasPre [.v ((prefixDir f).up (nodeX c0.1 c1.1 r).1 (nodeX c0.2 c1.2 r).1).1, .b ((prefixDir f).up (nodeX c0.1 c1.1 r).1 (nodeX c0.2 c1.2 r).1).2] ++
      optL t.hasSuf [.v ((suffixDir f).up (nodeX c0.1 c1.1 r).2 (nodeX c0.2 c1.2 r).2).1, .b ((suffixDir f).up (nodeX c0.1 c1.1 r).2 (nodeX c0.2 c1.2 r).2).2] := by
    intro r hr
    refine kx r hr 0 ⟨fun _ => 0, fun _ => false⟩ _ ?_
    rw [cells_up]
    exact C29_upstream t f _ _ _ _
  generalize ofCols w (upstreamCir t).outs o0 = q0 at k0 row
  generalize ofCols w (upstreamCir t).outs o1 = q1 at k1 row
  obtain ⟨l0, r0⟩ := c0
  obtain ⟨l1, r1⟩ := c1
  have a1 := h0.1 .pre; have a2 := h0.1 .suf; have a3 := h0.2 .pre; have a4 := h0.2 .suf
  have a5 := h1.1 .pre; have a6 := h1.1 .suf; have a7 := h1.2 .pre; have a8 := h1.2 .suf
  cases t with
  | pre =>
    simp only [upstreamCir, optL, AggType.hasPre, AggType.hasSuf, if_true, Bool.false_eq_true, if_false, List.append_nil, List.forall₂_cons_left_iff,
      List.forall₂_nil_left_iff] at k0 k1
    obtain ⟨_, _, h, ⟨_, _, h', rfl, rfl⟩, rfl⟩ := k0
    obtain ⟨x0, rfl, hx0⟩ := is_v h
    obtain ⟨y0, rfl, hy0⟩ := is_b h'
    obtain ⟨_, _, h, ⟨_, _, h', rfl, rfl⟩, rfl⟩ := k1
    obtain ⟨x1, rfl, hx1⟩ := is_v h
    obtain ⟨y1, rfl, hy1⟩ := is_b h'
    refine ⟨fun h hh => ?_, fun h hh => ?_, fun h hh => ?_⟩ <;> cases h
    · simp [upRead, AggType.hasPre, Lv.get, TCol.vals, TCol.bits, hx0, hy0]
    · cases hh
    · simp [upRead, AggType.hasPre, Lv.get, TCol.vals, TCol.bits, hx1, hy1]
    · cases hh
    · refine up_list hx0 hx1 hy0 hy1 (a1 rfl) (a5 rfl) (a3 rfl) (a7 rfl) fun r hr => ?_
      have := row r hr
      simp only [cellsX, optL, AggType.hasPre, AggType.hasSuf, if_true, Bool.false_eq_true, if_false, List.append_nil, List.map_cons, List.map_nil,
        List.zipWith_cons_cons, List.zipWith_nil_left, TCol.cell, Cell.xor, List.cons.injEq, Cell.v.injEq, Cell.b.injEq, and_true] at this
      exact Prod.ext this.1 this.2
    · cases hh
  | suf =>
    simp only [upstreamCir, optL, AggType.hasPre, AggType.hasSuf, if_true, Bool.false_eq_true, if_false, List.nil_append, List.forall₂_cons_left_iff,
      List.forall₂_nil_left_iff] at k0 k1
    obtain ⟨_, _, h, ⟨_, _, h', rfl, rfl⟩, rfl⟩ := k0
    obtain ⟨x0, rfl, hx0⟩ := is_v h
    obtain ⟨y0, rfl, hy0⟩ := is_b h'
    obtain ⟨_, _, h, ⟨_, _, h', rfl, rfl⟩, rfl⟩ := k1
    obtain ⟨x1, rfl, hx1⟩ := is_v h
    obtain ⟨y1, rfl, hy1⟩ := is_b h'
    refine ⟨fun h hh => ?_, fun h hh => ?_, fun h hh => ?_⟩ <;> cases h
    · cases hh
    · simp [upRead, AggType.hasPre, AggType.hasSuf, Lv.get, TCol.vals, TCol.bits, hx0, hy0]
    · cases hh
    · simp [upRead, AggType.hasPre, AggType.hasSuf, Lv.get, TCol.vals, TCol.bits, hx1, hy1]
    · cases hh
    · refine up_list hx0 hx1 hy0 hy1 (a2 rfl) (a6 rfl) (a4 rfl) (a8 rfl) fun r hr => ?_
      have := row r hr
      simp only [cellsX, optL, AggType.hasPre, AggType.hasSuf, if_true, Bool.false_eq_true, if_false, List.nil_append, List.map_cons, List.map_nil,
        List.zipWith_cons_cons, List.zipWith_nil_left, TCol.cell, Cell.xor, List.cons.injEq, Cell.v.injEq, Cell.b.injEq, and_true] at this
      exact Prod.ext this.1 this.2
  | full =>
    simp only [upstreamCir, optL, AggType.hasPre, AggType.hasSuf, if_true, List.cons_append, List.nil_append, List.forall₂_cons_left_iff,
      List.forall₂_nil_left_iff] at k0 k1
    obtain ⟨_, _, h, ⟨_, _, h', ⟨_, _, h2, ⟨_, _, h3, rfl, rfl⟩, rfl⟩, rfl⟩, rfl⟩ := k0
    obtain ⟨x0, rfl, hx0⟩ := is_v h
    obtain ⟨y0, rfl, hy0⟩ := is_b h'
    obtain ⟨z0, rfl, hz0⟩ := is_v h2
    obtain ⟨u0, rfl, hu0⟩ := is_b h3
    obtain ⟨_, _, h, ⟨_, _, h', ⟨_, _, h2, ⟨_, _, h3, rfl, rfl⟩, rfl⟩, rfl⟩, rfl⟩ := k1
    obtain ⟨x1, rfl, hx1⟩ := is_v h
    obtain ⟨y1, rfl, hy1⟩ := is_b h'
    obtain ⟨z1, rfl, hz1⟩ := is_v h2
    obtain ⟨u1, rfl, hu1⟩ := is_b h3
    have row' : ∀ r < n, _ := fun r hr => by
      have := row r hr
      simp only [cellsX, optL, AggType.hasPre, AggType.hasSuf, if_true, List.cons_append, List.nil_append, List.map_cons, List.map_nil,
        List.zipWith_cons_cons, List.zipWith_nil_left, TCol.cell, Cell.xor, List.cons.injEq, Cell.v.injEq, Cell.b.injEq, and_true] at this
      exact this
    refine ⟨fun h hh => ?_, fun h hh => ?_, fun h hh => ?_⟩ <;> cases h
    · simp [upRead, AggType.hasPre, Lv.get, TCol.vals, TCol.bits, hx0, hy0]
    · simp [upRead, AggType.hasPre, AggType.hasSuf, Lv.get, TCol.vals, TCol.bits, hz0, hu0]
    · simp [upRead, AggType.hasPre, Lv.get, TCol.vals, TCol.bits, hx1, hy1]
    · simp [upRead, AggType.hasPre, AggType.hasSuf, Lv.get, TCol.vals, TCol.bits, hz1, hu1]
    · refine up_list hx0 hx1 hy0 hy1 (a1 rfl) (a5 rfl) (a3 rfl) (a7 rfl) fun r hr => ?_
      exact Prod.ext (row' r hr).1 (row' r hr).2.1
    · refine up_list hz0 hz1 hu0 hu1 (a2 rfl) (a6 rfl) (a4 rfl) (a8 rfl) fun r hr => ?_
      exact Prod.ext (row' r hr).2.2.1 (row' r hr).2.2.2

/-- What the downstream evaluation gives. -/
def GDownOk (t : AggType) (f : BitVec w → BitVec w → BitVec w) (n : Nat) (c0 c1 : Sp (BitVec w × Bool)) (p0 p1 : Lv (BitVec w)) (v0 v1 : Sp (BitVec w)) : Prop :=
  v0.Len t n ∧ v1.Len t n ∧ ∀ h, t.has h = true →
    XV (v0.1.get h) (v1.1.get h) = (List.zipWith (fun v ab => (dirOf f h).down v ab.1 ab.2) (XV (p0.get h) (p1.get h))
      (List.zip (X (c0.1.get h) (c1.1.get h)) (X (c0.2.get h) (c1.2.get h)))).map (·.1) ∧
    XV (v0.2.get h) (v1.2.get h) = (List.zipWith (fun v ab => (dirOf f h).down v ab.1 ab.2) (XV (p0.get h) (p1.get h))
      (List.zip (X (c0.1.get h) (c1.1.get h)) (X (c0.2.get h) (c1.2.get h)))).map (·.2)

theorem down_ok (hn : 0 < n) (hk : CirOk (downstreamCir t) w f c) (hE : E.Ok n c) (hM0 : M0.Fits n) (hM1 : M1.Fits n) {c0 c1 : Sp (BitVec w × Bool)}
    {p0 p1 : Lv (BitVec w)} (h0 : c0.Len t n) (h1 : c1.Len t n) (g0 : p0.Len t n) (g1 : p1.Len t n) :
    ∃ o0 o1, mapCall E M0 M1 n c ((downstreamCir t).outs.map (Port.bits w))
        ((downCols t c0.1 c0.2 p0).map TCol.toCol) ((downCols t c1.1 c1.2 p1).map TCol.toCol) = .ok (o0, o1) ∧
      GDownOk t f n c0 c1 p0 p1 (downRead t (ofCols w (downstreamCir t).outs o0)) (downRead t (ofCols w (downstreamCir t).outs o1)) := by
  obtain ⟨o0, o1, e, k0, k1, kx⟩ := typed_map hn hk hE hM0 hM1 (downCols_is h0.1 h0.2 g0) (downCols_is h1.1 h1.2 g1)
  refine ⟨o0, o1, e, ?_⟩
  have row : ∀ r < n, cellsX (ofCols w (downstreamCir t).outs o0) (ofCols w (downstreamCir t).outs o1) r =
      optL t.hasPre [.v ((prefixDir f).down (valX p0 p1 r).1 (nodeX c0.1 c1.1 r).1 (nodeX c0.2 c1.2 r).1).1,
        .v ((prefixDir f).down (valX p0 p1 r).1 (nodeX c0.1 c1.1 r).1 (nodeX c0.2 c1.2 r).1).2] ++
      optL t.hasSuf [.v ((suffixDir f).down (valX p0 p1 r).2 (nodeX c0.1 c1.1 r).2 (nodeX c0.2 c1.2 r).2).1,
        .v ((suffixDir f).down (valX p0 p1 r).2 (nodeX c0.1 c1.1 r).2 (nodeX c0.2 c1.2 r).2).2] := by
    intro r hr
    refine kx r hr 0 ⟨fun _ => 0, fun _ => false⟩ _ ?_
    rw [cells_down]
    exact C29_downstream t f _ _ _ _ _
  generalize ofCols w (downstreamCir t).outs o0 = q0 at k0 row
  generalize ofCols w (downstreamCir t).outs o1 = q1 at k1 row
  obtain ⟨l0, r0⟩ := c0
  obtain ⟨l1, r1⟩ := c1
  have a1 := h0.1 .pre; have a2 := h0.1 .suf; have a3 := h0.2 .pre; have a4 := h0.2 .suf
  have a5 := h1.1 .pre; have a6 := h1.1 .suf; have a7 := h1.2 .pre; have a8 := h1.2 .suf
  have b1 := g0 .pre; have b2 := g0 .suf; have b3 := g1 .pre; have b4 := g1 .suf
  cases t with
  | pre =>
    simp only [downstreamCir, optL, AggType.hasPre, AggType.hasSuf, if_true, Bool.false_eq_true, if_false, List.append_nil, List.forall₂_cons_left_iff,
      List.forall₂_nil_left_iff] at k0 k1
    obtain ⟨_, _, h, ⟨_, _, h', rfl, rfl⟩, rfl⟩ := k0
    obtain ⟨x0, rfl, hx0⟩ := is_v h
    obtain ⟨y0, rfl, hy0⟩ := is_v h'
    obtain ⟨_, _, h, ⟨_, _, h', rfl, rfl⟩, rfl⟩ := k1
    obtain ⟨x1, rfl, hx1⟩ := is_v h
    obtain ⟨y1, rfl, hy1⟩ := is_v h'
    have row' : ∀ r < n, _ := fun r hr => by
      have := row r hr
      simp only [cellsX, optL, AggType.hasPre, AggType.hasSuf, if_true, Bool.false_eq_true, if_false, List.append_nil, List.map_cons, List.map_nil,
        List.zipWith_cons_cons, List.zipWith_nil_left, TCol.cell, Cell.xor, List.cons.injEq, Cell.v.injEq, and_true] at this
      exact this
    refine ⟨⟨fun h hh => ?_, fun h hh => ?_⟩, ⟨fun h hh => ?_, fun h hh => ?_⟩, fun h hh => ?_⟩ <;> cases h <;> first | cases hh | skip
    · simpa [downRead, AggType.hasPre, Lv.get, TCol.vals] using hx0
    · simpa [downRead, AggType.hasPre, Lv.get, TCol.vals] using hy0
    · simpa [downRead, AggType.hasPre, Lv.get, TCol.vals] using hx1
    · simpa [downRead, AggType.hasPre, Lv.get, TCol.vals] using hy1
    · exact ⟨down_list hx0 hx1 (b1 rfl) (b3 rfl) (a1 rfl) (a5 rfl) (a3 rfl) (a7 rfl) fun r hr => (row' r hr).1,
        down_list hy0 hy1 (b1 rfl) (b3 rfl) (a1 rfl) (a5 rfl) (a3 rfl) (a7 rfl) fun r hr => (row' r hr).2⟩
  | suf =>
    simp only [downstreamCir, optL, AggType.hasPre, AggType.hasSuf, if_true, Bool.false_eq_true, if_false, List.nil_append, List.forall₂_cons_left_iff,
      List.forall₂_nil_left_iff] at k0 k1
    obtain ⟨_, _, h, ⟨_, _, h', rfl, rfl⟩, rfl⟩ := k0
    obtain ⟨x0, rfl, hx0⟩ := is_v h
    obtain ⟨y0, rfl, hy0⟩ := is_v h'
    obtain ⟨_, _, h, ⟨_, _, h', rfl, rfl⟩, rfl⟩ := k1
    obtain ⟨x1, rfl, hx1⟩ := is_v h
    obtain ⟨y1, rfl, hy1⟩ := is_v h'
    have row' : ∀ r < n, _ := fun r hr => by
      have := row r hr
      simp only [cellsX, optL, AggType.hasPre, AggType.hasSuf, if_true, Bool.false_eq_true, if_false, List.nil_append, List.map_cons, List.map_nil,
        List.zipWith_cons_cons, List.zipWith_nil_left, TCol.cell, Cell.xor, List.cons.injEq, Cell.v.injEq, and_true] at this
      exact this
    refine ⟨⟨fun h hh => ?_, fun h hh => ?_⟩, ⟨fun h hh => ?_, fun h hh => ?_⟩, fun h hh => ?_⟩ <;> cases h <;> first | cases hh | skip
    · simpa [downRead, AggType.hasPre, AggType.hasSuf, Lv.get, TCol.vals] using hx0
    · simpa [downRead, AggType.hasPre, AggType.hasSuf, Lv.get, TCol.vals] using hy0
    · simpa [downRead, AggType.hasPre, AggType.hasSuf, Lv.get, TCol.vals] using hx1
    · simpa [downRead, AggType.hasPre, AggType.hasSuf, Lv.get, TCol.vals] using hy1
    · exact ⟨down_list hx0 hx1 (b2 rfl) (b4 rfl) (a2 rfl) (a6 rfl) (a4 rfl) (a8 rfl) fun r hr => (row' r hr).1,
        down_list hy0 hy1 (b2 rfl) (b4 rfl) (a2 rfl) (a6 rfl) (a4 rfl) (a8 rfl) fun r hr => (row' r hr).2⟩
  | full =>
    simp only [downstreamCir, optL, AggType.hasPre, AggType.hasSuf, if_true, List.cons_append, List.nil_append, List.forall₂_cons_left_iff,
      List.forall₂_nil_left_iff] at k0 k1
    obtain ⟨_, _, h, ⟨_, _, h', ⟨_, _, h2, ⟨_, _, h3, rfl, rfl⟩, rfl⟩, rfl⟩, rfl⟩ := k0
    obtain ⟨x0, rfl, hx0⟩ := is_v h
    obtain ⟨y0, rfl, hy0⟩ := is_v h'
    obtain ⟨z0, rfl, hz0⟩ := is_v h2
    obtain ⟨u0, rfl, hu0⟩ := is_v h3
    obtain ⟨_, _, h, ⟨_, _, h', ⟨_, _, h2, ⟨_, _, h3, rfl, rfl⟩, rfl⟩, rfl⟩, rfl⟩ := k1
    obtain ⟨x1, rfl, hx1⟩ := is_v h
    obtain ⟨y1, rfl, hy1⟩ := is_v h'
    obtain ⟨z1, rfl, hz1⟩ := is_v h2
    obtain ⟨u1, rfl, hu1⟩ := is_v h3
    have row' : ∀ r < n, _ := fun r hr => by
      have := row r hr
      simp only [cellsX, optL, AggType.hasPre, AggType.hasSuf, if_true, List.cons_append, List.nil_append, List.map_cons, List.map_nil,
        List.zipWith_cons_cons, List.zipWith_nil_left, TCol.cell, Cell.xor, List.cons.injEq, Cell.v.injEq, and_true] at this
      exact this
    refine ⟨⟨fun h hh => ?_, fun h hh => ?_⟩, ⟨fun h hh => ?_, fun h hh => ?_⟩, fun h hh => ?_⟩ <;> cases h
    · simpa [downRead, AggType.hasPre, AggType.hasSuf, Lv.get, TCol.vals] using hx0
    · simpa [downRead, AggType.hasPre, AggType.hasSuf, Lv.get, TCol.vals] using hz0
    · simpa [downRead, AggType.hasPre, AggType.hasSuf, Lv.get, TCol.vals] using hy0
    · simpa [downRead, AggType.hasPre, AggType.hasSuf, Lv.get, TCol.vals] using hu0
    · simpa [downRead, AggType.hasPre, AggType.hasSuf, Lv.get, TCol.vals] using hx1
    · simpa [downRead, AggType.hasPre, AggType.hasSuf, Lv.get, TCol.vals] using hz1
    · simpa [downRead, AggType.hasPre, AggType.hasSuf, Lv.get, TCol.vals] using hy1
    · simpa [downRead, AggType.hasPre, AggType.hasSuf, Lv.get, TCol.vals] using hu1
    · exact ⟨down_list hx0 hx1 (b1 rfl) (b3 rfl) (a1 rfl) (a5 rfl) (a3 rfl) (a7 rfl) fun r hr => (row' r hr).1,
        down_list hy0 hy1 (b1 rfl) (b3 rfl) (a1 rfl) (a5 rfl) (a3 rfl) (a7 rfl) fun r hr => (row' r hr).2.1⟩
    · exact ⟨down_list hz0 hz1 (b2 rfl) (b4 rfl) (a2 rfl) (a6 rfl) (a4 rfl) (a8 rfl) fun r hr => (row' r hr).2.2.1,
        down_list hu0 hu1 (b2 rfl) (b4 rfl) (a2 rfl) (a6 rfl) (a4 rfl) (a8 rfl) fun r hr => (row' r hr).2.2.2⟩

/-- What the leaf evaluation gives. -/
theorem leaf_ok (hn : 0 < n) (hk : CirOk (leafCircuit t) w f c) (hE : E.Ok n c) (hM0 : M0.Fits n) (hM1 : M1.Fits n)
    (hcon : ∀ b ∈ c.outs, b ≠ [] ∧ ∀ j, (h : j + 1 < b.length) → b[j + 1] = b[j] + 1) {c0 c1 : Sp (BitVec w × Bool)}
    {p0 p1 : Sp (BitVec w)} (h0 : c0.Len t n) (h1 : c1.Len t n) (g0 : p0.Len t n) (g1 : p1.Len t n)
    : ∃ o0 o1 l0 r0 l1 r1, leafCall E M0 M1 n c ((leafCircuit t).outs.map (Port.bits w))
        ((leafCols t c0.1 c0.2 p0.1 p0.2).map TCol.toCol) ((leafCols t c1.1 c1.2 p1.1 p1.2).map TCol.toCol) = .ok (o0, o1) ∧
      ofCols w (leafCircuit t).outs o0 = [.v l0, .v r0] ∧ ofCols w (leafCircuit t).outs o1 = [.v l1, .v r1] ∧
      l0.length = n ∧ r0.length = n ∧ l1.length = n ∧ r1.length = n ∧ ∀ r < n,
        (let x := fun q : Node (BitVec w) => if t.hasPre then q.1.1 else q.2.1
        l0.getD r 0 ^^^ l1.getD r 0 = leafFn t f (x (nodeX c0.1 c1.1 r)) ((valX p0.1 p1.1 r).1, (nodeX c0.1 c1.1 r).1.2) ((valX p0.1 p1.1 r).2, (nodeX c0.1 c1.1 r).2.2) ∧
        r0.getD r 0 ^^^ r1.getD r 0 = leafFn t f (x (nodeX c0.2 c1.2 r)) ((valX p0.2 p1.2 r).1, (nodeX c0.2 c1.2 r).1.2) ((valX p0.2 p1.2 r).2, (nodeX c0.2 c1.2 r).2.2)) := by
  obtain ⟨o0, o1, e, k0, k1, kx⟩ := typed_copy hn hk hE hM0 hM1 (leafCols_is h0.1 h0.2 g0.1 g0.2) (leafCols_is h1.1 h1.2 g1.1 g1.2) hcon
  have row : ∀ r < n, cellsX (ofCols w (leafCircuit t).outs o0) (ofCols w (leafCircuit t).outs o1) r =
      (let x := fun q : Node (BitVec w) => if t.hasPre then q.1.1 else q.2.1
      [.v (leafFn t f (x (nodeX c0.1 c1.1 r)) ((valX p0.1 p1.1 r).1, (nodeX c0.1 c1.1 r).1.2) ((valX p0.1 p1.1 r).2, (nodeX c0.1 c1.1 r).2.2)),
       .v (leafFn t f (x (nodeX c0.2 c1.2 r)) ((valX p0.2 p1.2 r).1, (nodeX c0.2 c1.2 r).1.2) ((valX p0.2 p1.2 r).2, (nodeX c0.2 c1.2 r).2.2))]) := by
    intro r hr
    refine kx r hr 0 ⟨fun _ => 0, fun _ => false⟩ _ ?_
    rw [cells_leaf]
    generalize nodeX c0.1 c1.1 r = a
    generalize nodeX c0.2 c1.2 r = b
    generalize valX p0.1 p1.1 r = u
    generalize valX p0.2 p1.2 r = v
    obtain ⟨⟨a1, a2⟩, a3, a4⟩ := a
    obtain ⟨⟨b1, b2⟩, b3, b4⟩ := b
    cases t with
    | pre => exact C29_leaf .pre f 0 ⟨fun _ => 0, fun _ => false⟩ ((a1, a2), (a1, a4)) ((b1, b2), (b1, b4)) u v rfl rfl
    | suf => exact C29_leaf .suf f 0 ⟨fun _ => 0, fun _ => false⟩ ((a3, a2), (a3, a4)) ((b3, b2), (b3, b4)) u v rfl rfl
    | full => 
      simp [Circ.run, leafCircuit, leafInputs, loadPorts, readPorts, optL, AggType.hasPre, AggType.hasSuf, evalInstrs,
        Instr.eval, Wires.setVal, Wires.setBit, leafFn, ok_bind]
  have k0' := k0
  have k1' := k1
  simp only [leafCircuit, List.forall₂_cons_left_iff, List.forall₂_nil_left_iff] at k0' k1'
  obtain ⟨_, _, h, ⟨_, _, h', rfl, rfl⟩, z0⟩ := k0'
  obtain ⟨x0, rfl, hx0⟩ := is_v h
  obtain ⟨y0, rfl, hy0⟩ := is_v h'
  obtain ⟨_, _, h, ⟨_, _, h', rfl, rfl⟩, z1⟩ := k1'
  obtain ⟨x1, rfl, hx1⟩ := is_v h
  obtain ⟨y1, rfl, hy1⟩ := is_v h'
  refine ⟨o0, o1, x0, y0, x1, y1, e, z0, z1, hx0, hy0, hx1, hy1, fun r hr => ?_⟩
  have := row r hr
  have e0 : ofCols w (leafCircuit t).outs o0 = [.v x0, .v y0] := z0
  have e1 : ofCols w (leafCircuit t).outs o1 = [.v x1, .v y1] := z1
  rw [e0, e1] at this
  simp only [cellsX, List.map_cons, List.map_nil, List.zipWith_cons_cons, List.zipWith_nil_left, TCol.cell, Cell.xor, List.cons.injEq, Cell.v.injEq,
    and_true] at this
  exact this

end

end Agg
end SecJoin
