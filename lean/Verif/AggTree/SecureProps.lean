import Verif.AggTree.SecureLemmas
/-!
# Properties C27 and C29 of the shared aggregation tree
-/
namespace SecJoin
namespace Agg

/-! ## The circuits -/

theorem xor_mux (a b : BitVec w) (c : Bool) : (a ^^^ if c then a ^^^ b else 0#w) = if c then b else a := by
  cases c <;> simp [← BitVec.xor_assoc]

/-- C29: the upstream circuit, given the columns of `upstream` in their order, computes the node functions of the plaintext
tree, in all three modes and whatever the other wires contain. -/
theorem C29_upstream (t : AggType) (f : BitVec w → BitVec w → BitVec w) (scratch : BitVec w) (s : Wires w)
    (l r : Node (BitVec w)) : (upstreamCir t).run f scratch s (upInputs t l r) = .ok
      (optL t.hasPre [.v ((prefixDir f).up l.1 r.1).1, .b ((prefixDir f).up l.1 r.1).2] ++
       optL t.hasSuf [.v ((suffixDir f).up l.2 r.2).1, .b ((suffixDir f).up l.2 r.2).2]) := by
  cases t <;>
    simp [Circ.run, upstreamCir, upInputs, loadPorts, readPorts, optL, AggType.hasPre, AggType.hasSuf, evalInstrs, Instr.eval,
      Wires.setVal, Wires.setBit, prefixDir, suffixDir, Bool.and_comm, ok_bind]

/-- C29: the downstream circuit computes the values passed to the children. -/
theorem C29_downstream (t : AggType) (f : BitVec w → BitVec w → BitVec w) (scratch : BitVec w) (s : Wires w)
    (l r : Node (BitVec w)) (p : BitVec w × BitVec w) :
    (downstreamCir t).run f scratch s (downInputs t l r p) = .ok
      (optL t.hasPre [.v ((prefixDir f).down p.1 l.1 r.1).1, .v ((prefixDir f).down p.1 l.1 r.1).2] ++
       optL t.hasSuf [.v ((suffixDir f).down p.2 l.2 r.2).1, .v ((suffixDir f).down p.2 l.2 r.2).2]) := by
  cases t <;>
    simp [Circ.run, downstreamCir, downInputs, loadPorts, readPorts, optL, AggType.hasPre, AggType.hasSuf, evalInstrs,
      Instr.eval, Wires.setVal, Wires.setBit, prefixDir, suffixDir, ok_bind, xor_mux]

/-- C29: the leaf circuit computes the results at the two leaves of a pair. -/
theorem C29_leaf (t : AggType) (f : BitVec w → BitVec w → BitVec w) (scratch : BitVec w) (s : Wires w)
    (l r : Node (BitVec w)) (pl pr : BitVec w × BitVec w) (hl : l.1.1 = l.2.1) (hr : r.1.1 = r.2.1) :
    (leafCircuit t).run f scratch s (leafInputs t l r pl pr) = .ok
      [.v (leafFn t f l.1.1 (pl.1, l.1.2) (pl.2, l.2.2)), .v (leafFn t f r.1.1 (pr.1, r.1.2) (pr.2, r.2.2))] := by
  cases t <;>
    simp [Circ.run, leafCircuit, leafInputs, loadPorts, readPorts, optL, AggType.hasPre, AggType.hasSuf, evalInstrs,
      Instr.eval, Wires.setVal, Wires.setBit, leafFn, ok_bind, hl, hr]

/-- The result of the plaintext tree at a leaf for each mode, PlainAggTree.cpp 238-246. -/
def pick (t : AggType) (r : V × V × V) : V :=
  match t with
  | .pre => r.1
  | .suf => r.2.1
  | .full => r.2.2

/-! ## The tree -/

theorem leafSide_ok {t : AggType} {op : V → V → V} {zero : V} {m : Nat} {lp ls : List (V × Bool)} {vp vs : List V}
    {x : Nat → V} {ba bb : Nat → Bool} {va vb : Nat → V}
    (h1 : t.hasPre = true → ∀ w < m, lp[w]? = some (x w, ba w) ∧ vp[w]? = some (va w))
    (h2 : t.hasSuf = true → ∀ w < m, ls[w]? = some (x w, bb w) ∧ vs[w]? = some (vb w)) :
    leafSide t op zero m lp ls vp vs =
      .ok ((List.range m).map fun w => leafFn t op (x w) (va w, ba w) (vb w, bb w)) := by
  unfold leafSide
  apply mapRes_ok
  intro w hw
  rw [List.mem_range] at hw
  cases t with
  | pre =>
    have := h1 rfl w hw
    simp [AggType.hasPre, AggType.hasSuf, rd, this.1, this.2, ok_bind, leafFn]
  | suf =>
    have := h2 rfl w hw
    simp [AggType.hasPre, AggType.hasSuf, rd, this.1, this.2, ok_bind, leafFn]
  | full =>
    have a := h1 rfl w hw
    have b := h2 rfl w hw
    simp [AggType.hasPre, AggType.hasSuf, rd, a.1, a.2, b.1, b.2, ok_bind, leafFn]

theorem setLeafVals_get {zero : V} {n16 : Nat} {xs : List V} {bits : List Bool} (h : bits.length = xs.length)
    (hn : xs.length ≤ n16) {i : Nat} (hi : i < n16) :
    (setLeafVals zero n16 xs bits)[i]? = some (xs.getD i zero, bits.getD i false) := by
  unfold setLeafVals
  rw [List.getElem?_append]
  simp only [List.length_zip, h, Nat.min_self]
  by_cases hlt : i < xs.length
  · rw [if_pos hlt, List.zip, List.getElem?_zipWith, List.getElem?_eq_getElem hlt,
      List.getElem?_eq_getElem (show i < bits.length by omega)]
    simp [List.getD_eq_getElem?_getD, List.getElem?_eq_getElem hlt, List.getElem?_eq_getElem (show i < bits.length by omega)]
  · rw [if_neg hlt, List.getElem?_replicate, if_pos (by omega)]
    simp [List.getD_eq_getElem?_getD, List.getElem?_eq_none (Nat.le_of_not_lt hlt),
      List.getElem?_eq_none (show bits.length ≤ i by omega)]

theorem setLeafVals_length {zero : V} {n16 : Nat} {xs : List V} {bits : List Bool} (h : bits.length = xs.length)
    (hn : xs.length ≤ n16) : (setLeafVals zero n16 xs bits).length = n16 := by
  unfold setLeafVals
  simp [h]; omega

theorem bP_eq {c : List Bool} {n : Nat} (h : c.length = n) (h0 : c[0]? = some false) (i : Nat) :
    c.getD i false = bP c n i := by
  unfold bP
  split
  · rfl
  · rename_i hn
    by_cases hi : i = 0
    · rw [hi, List.getD_eq_getElem?_getD, h0]; rfl
    · rw [List.getD_eq_getElem?_getD, List.getElem?_eq_none (by omega)]; rfl

theorem bS_eq {c : List Bool} {n : Nat} (h : c.length = n) (hn : 1 ≤ n) (i : Nat) :
    (sufBits c).getD i false = bS c n i := by
  unfold bS sufBits
  rw [List.getD_eq_getElem?_getD, List.getElem?_append, List.length_tail]
  by_cases h1 : i < c.length - 1
  · rw [if_pos h1, if_pos (by omega), List.getElem?_tail, List.getD_eq_getElem?_getD]
  · rw [if_neg h1, if_neg (by omega)]
    by_cases h2 : i - (c.length - 1) = 0
    · rw [h2]; rfl
    · rw [List.getElem?_eq_none (by simp; omega)]; rfl

theorem secure_value {op : V → V → V} (ha : ∀ a b c, op (op a b) c = op a (op b c)) (zero : V) {xs : List V}
    {c : List Bool} {t : AggType} {i N : Nat} {va vb : V} (hi : i < xs.length) (hN : xs.length ≤ N)
    (hp : t.hasPre = true → 0 < i → va = aggP op (fun i => xs.getD i zero) (bP c xs.length) 0 (i - 1))
    (hs : t.hasSuf = true → i + 1 < N →
      vb = aggS op (fun i => xs.getD i zero) (bS c xs.length) (N - (i + 1) - 1) (i + 1)) :
    leafFn t op (xs.getD i zero) (va, bP c xs.length i) (vb, bS c xs.length i) =
      pick t (aggP op (fun i => xs.getD i zero) (bP c xs.length) 0 i,
        aggS op (fun i => xs.getD i zero) (bS c xs.length) (xs.length - i - 1) i,
        if bS c xs.length i then op (aggP op (fun i => xs.getD i zero) (bP c xs.length) 0 i)
          (aggS op (fun i => xs.getD i zero) (bS c xs.length) (xs.length - (i + 1) - 1) (i + 1))
        else aggP op (fun i => xs.getD i zero) (bP c xs.length) 0 i) := by
  have h1 : t.hasPre = true → (if bP c xs.length i then op va (xs.getD i zero) else xs.getD i zero) =
      aggP op (fun i => xs.getD i zero) (bP c xs.length) 0 i := by
    intro ht
    cases i with
    | zero =>
      have : bP c xs.length 0 = false := by unfold bP; rw [if_neg (by omega)]
      rw [this, if_neg (by decide)]; rfl
    | succ i => rw [hp ht (by omega), Nat.add_sub_cancel, aggP, Nat.zero_add]
  have h2 : t.hasSuf = true → bS c xs.length i = true →
      vb = aggS op (fun i => xs.getD i zero) (bS c xs.length) (xs.length - (i + 1) - 1) (i + 1) := by
    intro ht hb
    have hi1 : i + 1 < xs.length := by
      unfold bS at hb
      by_contra hcon
      rw [if_neg (by omega)] at hb
      exact absurd hb (by decide)
    rw [hs ht (by omega)]
    have hbn : bS c xs.length (i + 1 + (xs.length - (i + 1) - 1)) = false := by unfold bS; rw [if_neg (by omega)]
    have := aggS_cut (op := op) (fun i => xs.getD i zero) (bS c xs.length) (j := N - xs.length) hbn
    rw [← this]
    congr 1
    omega
  cases t with
  | pre => exact h1 rfl
  | suf => exact aggS_succ (h2 rfl) hi
  | full =>
    simp only [leafFn, pick]
    rw [h1 rfl]
    cases hb : bS c xs.length i with
    | false => rfl
    | true => rw [h2 rfl hb]

theorem aggTree_get {op : V → V → V} (ha : ∀ a b c, op (op a b) c = op a (op b c)) (zero : V) (t : AggType) {xs : List V}
    {c : List Bool} (hn : 2 ≤ xs.length) (hc : c.length = xs.length) (h0 : c[0]? = some false) :
    ∃ out, aggTree t op zero xs c = .ok out ∧ out.length = xs.length ∧ ∀ i < xs.length, out[i]? = some
      (pick t (aggP op (fun i => xs.getD i zero) (bP c xs.length) 0 i,
        aggS op (fun i => xs.getD i zero) (bS c xs.length) (xs.length - i - 1) i,
        if bS c xs.length i then op (aggP op (fun i => xs.getD i zero) (bP c xs.length) 0 i)
          (aggS op (fun i => xs.getD i zero) (bS c xs.length) (xs.length - (i + 1) - 1) (i + 1))
        else aggP op (fun i => xs.getD i zero) (bP c xs.length) 0 i)) := by
  obtain ⟨k, R, r, cb, e, h1, h2, h3, h4, -⟩ := sizes_ok hn
  have hev : (2 ^ k + R) % 2 = 0 := by
    rcases h4 with ⟨_, _, h⟩ | ⟨_, _, _, h, h'⟩
    · omega
    · obtain ⟨j, rfl⟩ : ∃ j, k = j + 1 := ⟨k - 1, by
        by_contra hcon
        have : k = 0 := by omega
        rw [this] at h'; omega⟩
      rw [Nat.pow_succ]; omega
  have hsb : (sufBits c).length = xs.length := by simp [sufBits]; omega
  have hb0 : bP c xs.length 0 = false := by unfold bP; rw [if_neg (by omega)]
  have hbN : bS c xs.length (2 ^ k + R - 1) = false := by unfold bS; rw [if_neg (by omega)]
  have hw1 := prefix_works ha (fun i => xs.getD i zero) (bP c xs.length) hb0 (2 ^ k + R)
  have hw2 := suffix_works ha (fun i => xs.getD i zero) (bS c xs.length) (2 ^ k + R) hbN
  have g1 : ∀ i < 2 ^ k + R, (setLeafVals zero (2 ^ k + R) xs c)[i]? = some (xs.getD i zero, bP c xs.length i) := by
    intro i hi
    rw [setLeafVals_get hc h3 hi, bP_eq hc h0]
  have g2 : ∀ i < 2 ^ k + R, (setLeafVals zero (2 ^ k + R) xs (sufBits c))[i]? = some (xs.getD i zero, bS c xs.length i) := by
    intro i hi
    rw [setLeafVals_get hsb h3 hi, bS_eq hc (by omega)]
  obtain ⟨t1, e1, k1, k2, k3⟩ := sHalf_ok (n := xs.length) (zero := zero) h1 h2 h4 hw1 (setLeafVals_length hc h3) (fun i hi => by
    rw [g1 i hi, show i + 1 - i - 1 = 0 by omega, show i + 1 - i = 1 by omega]
    simp [aggP, allB])
  obtain ⟨t2, e2, m1, m2, m3⟩ := sHalf_ok (n := xs.length) (zero := zero) h1 h2 h4 hw2 (setLeafVals_length hsb h3) (fun i hi => by
    rw [g2 i hi, show i + 1 - i - 1 = 0 by omega, show i + 1 - i = 1 by omega]
    simp [aggS, allB])
  -- the downstream values
  have hpl : ∀ w, ∃ v, w < (2 ^ k + R) / 2 → t1.1[w]? = some v ∧
      (0 < 2 * w → v = aggP op (fun i => xs.getD i zero) (bP c xs.length) 0 (2 * w - 1)) := by
    intro w
    by_cases hw : w < (2 ^ k + R) / 2
    · obtain ⟨⟨v, a, b⟩, -⟩ := k3 w hw; exact ⟨v, fun _ => ⟨a, b⟩⟩
    · exact ⟨zero, fun h => absurd h hw⟩
  have hpr : ∀ w, ∃ v, w < (2 ^ k + R) / 2 → t1.2[w]? = some v ∧
      (0 < 2 * w + 1 → v = aggP op (fun i => xs.getD i zero) (bP c xs.length) 0 (2 * w + 1 - 1)) := by
    intro w
    by_cases hw : w < (2 ^ k + R) / 2
    · obtain ⟨-, v, a, b⟩ := k3 w hw; exact ⟨v, fun _ => ⟨a, b⟩⟩
    · exact ⟨zero, fun h => absurd h hw⟩
  have hsl : ∀ w, ∃ v, w < (2 ^ k + R) / 2 → t2.1[w]? = some v ∧ (2 * w + 1 < 2 ^ k + R →
      v = aggS op (fun i => xs.getD i zero) (bS c xs.length) (2 ^ k + R - (2 * w + 1) - 1) (2 * w + 1)) := by
    intro w
    by_cases hw : w < (2 ^ k + R) / 2
    · obtain ⟨⟨v, a, b⟩, -⟩ := m3 w hw; exact ⟨v, fun _ => ⟨a, b⟩⟩
    · exact ⟨zero, fun h => absurd h hw⟩
  have hsr : ∀ w, ∃ v, w < (2 ^ k + R) / 2 → t2.2[w]? = some v ∧ (2 * w + 1 + 1 < 2 ^ k + R →
      v = aggS op (fun i => xs.getD i zero) (bS c xs.length) (2 ^ k + R - (2 * w + 1 + 1) - 1) (2 * w + 1 + 1)) := by
    intro w
    by_cases hw : w < (2 ^ k + R) / 2
    · obtain ⟨-, v, a, b⟩ := m3 w hw; exact ⟨v, fun _ => ⟨a, b⟩⟩
    · exact ⟨zero, fun h => absurd h hw⟩
  choose pl hpl using hpl
  choose pr hpr using hpr
  choose sl hsl using hsl
  choose sr hsr using hsr
  obtain ⟨pre, ep, qp⟩ : ∃ pre, (if t.hasPre then
      sHalf ⟨xs.length, 2 ^ k + R, r, cb, 2 * R :: 2 ^ k :: halves k (2 ^ k)⟩ (prefixDir op) zero (setLeafVals zero (2 ^ k + R) xs c)
      else .ok ([], []) : Res (List V × List V)) = .ok pre ∧ (t.hasPre = true → pre = t1) := by
    cases t.hasPre with
    | true => exact ⟨t1, e1, fun _ => rfl⟩
    | false => exact ⟨([], []), rfl, fun h => by simp at h⟩
  obtain ⟨suf, es, qs⟩ : ∃ suf, (if t.hasSuf then
      sHalf ⟨xs.length, 2 ^ k + R, r, cb, 2 * R :: 2 ^ k :: halves k (2 ^ k)⟩ (suffixDir op) zero
        (setLeafVals zero (2 ^ k + R) xs (sufBits c))
      else .ok ([], []) : Res (List V × List V)) = .ok suf ∧ (t.hasSuf = true → suf = t2) := by
    cases t.hasSuf with
    | true => exact ⟨t2, e2, fun _ => rfl⟩
    | false => exact ⟨([], []), rfl, fun h => by simp at h⟩
  have sideL := leafSide_ok (t := t) (op := op) (zero := zero) (m := (2 ^ k + R) / 2)
    (lp := (unzipAlt (setLeafVals zero (2 ^ k + R) xs c)).1) (ls := (unzipAlt (setLeafVals zero (2 ^ k + R) xs (sufBits c))).1)
    (vp := pre.1) (vs := suf.1) (x := fun w => xs.getD (2 * w) zero) (ba := fun w => bP c xs.length (2 * w))
    (bb := fun w => bS c xs.length (2 * w)) (va := pl) (vb := sl)
    (fun ht w hw => ⟨by rw [unzipAlt_fst, g1 _ (by omega)], by rw [qp ht]; exact (hpl w hw).1⟩)
    (fun ht w hw => ⟨by rw [unzipAlt_fst, g2 _ (by omega)], by rw [qs ht]; exact (hsl w hw).1⟩)
  have sideR := leafSide_ok (t := t) (op := op) (zero := zero) (m := (2 ^ k + R) / 2)
    (lp := (unzipAlt (setLeafVals zero (2 ^ k + R) xs c)).2) (ls := (unzipAlt (setLeafVals zero (2 ^ k + R) xs (sufBits c))).2)
    (vp := pre.2) (vs := suf.2) (x := fun w => xs.getD (2 * w + 1) zero) (ba := fun w => bP c xs.length (2 * w + 1))
    (bb := fun w => bS c xs.length (2 * w + 1)) (va := pr) (vb := sr)
    (fun ht w hw => ⟨by rw [unzipAlt_snd, g1 _ (by omega)], by rw [qp ht]; exact (hpr w hw).1⟩)
    (fun ht w hw => ⟨by rw [unzipAlt_snd, g2 _ (by omega)], by rw [qs ht]; exact (hsr w hw).1⟩)
  refine ⟨(zipAlt ((List.range ((2 ^ k + R) / 2)).map fun w => leafFn t op (xs.getD (2 * w) zero)
      (pl w, bP c xs.length (2 * w)) (sl w, bS c xs.length (2 * w)))
      ((List.range ((2 ^ k + R) / 2)).map fun w => leafFn t op (xs.getD (2 * w + 1) zero)
      (pr w, bP c xs.length (2 * w + 1)) (sr w, bS c xs.length (2 * w + 1)))).take xs.length, ?_, ?_, ?_⟩
  · unfold aggTree
    rw [e, ok_bind, decide_eq_false (by simp [hc]), throwIf_false, ok_bind]
    simp only [ep, es, ok_bind, sideL, sideR]
    rw [if_neg (by simp; omega)]
  · rw [List.length_take, zipAlt_length]; simp; omega
  · intro i hi
    rw [List.getElem?_take, if_pos hi, zipAlt_get _ _ (by simp)]
    have hi2 : i / 2 < (2 ^ k + R) / 2 := by omega
    by_cases hpar : i % 2 = 0
    · have ew : 2 * (i / 2) = i := by omega
      rw [if_pos hpar, List.getElem?_map, List.getElem?_range hi2, Option.map_some]
      congr 1
      have a := (hpl (i / 2) hi2).2
      have b := (hsl (i / 2) hi2).2
      rw [ew] at a b ⊢
      exact secure_value ha zero hi h3 (fun _ => a) (fun _ => b)
    · have ew : 2 * (i / 2) + 1 = i := by omega
      rw [if_neg hpar, List.getElem?_map, List.getElem?_range hi2, Option.map_some]
      congr 1
      have a := (hpr (i / 2) hi2).2
      have b := (hsr (i / 2) hi2).2
      rw [ew] at a b ⊢
      exact secure_value ha zero hi h3 (fun _ => a) (fun _ => b)

/-- The rows that are aggregated for row `i` of the segment `s .. e`. -/
def partOf (t : AggType) (xs : List V) (s e i : Nat) : List V :=
  match t with
  | .pre => (xs.drop s).take (i + 1 - s)
  | .suf => (xs.drop i).take (e + 1 - i)
  | .full => (xs.drop s).take (e + 1 - s)

/-- C27: for an associative operation the shared tree returns at every row the aggregate of the rows of its segment up to
it, from it on, or of the whole segment, according to the mode. -/
theorem C27_shared {op : V → V → V} (ha : ∀ a b c, op (op a b) c = op a (op b c)) (zero : V) (t : AggType) {xs : List V}
    {c : List Bool} (hn : 2 ≤ xs.length) (hc : c.length = xs.length) (h0 : c[0]? = some false) :
    ∃ out, aggTree t op zero xs c = .ok out ∧ out.length = xs.length ∧
      ∀ s e i, IsSegment c xs.length s e → s ≤ i → i ≤ e → ∃ y, out[i]? = some y ∧
        fold1 op (partOf t xs s e i) = some y := by
  obtain ⟨out, e1, e2, e3⟩ := aggTree_get ha zero t hn hc h0
  refine ⟨out, e1, e2, fun s e i hseg h1 h2 => ⟨_, e3 i (by have := hseg.2.1; omega), ?_⟩⟩
  obtain ⟨f1, f2, f3⟩ := segment_folds ha zero hseg h1 h2
  cases t with
  | pre => exact f1
  | suf => exact f2
  | full => exact f3

example : aggTree .full (· ++ ·) "" ["a", "b", "c", "d", "e"] [false, true, false, true, true] =
    .ok ["ab", "ab", "cde", "cde", "cde"] := by decide +kernel

/-- C29: the shared tree reveals the values of the plaintext tree, in all three modes. -/
theorem C29_agrees [DecidableEq V] {op : V → V → V} (ha : ∀ a b c, op (op a b) c = op a (op b c)) (zero : V) (t : AggType)
    {xs : List V} {c : List Bool} (hn : 2 ≤ xs.length) (hc : c.length = xs.length) (h0 : c[0]? = some false) :
    ∃ res, pTree op zero xs c = .ok res ∧ aggTree t op zero xs c = .ok (res.map (pick t)) := by
  obtain ⟨res, r1, r2, r3⟩ := C27_plain ha zero hn (by omega) h0
  obtain ⟨out, o1, o2, o3⟩ := C27_shared ha zero t hn hc h0
  refine ⟨res, r1, ?_⟩
  rw [o1]
  congr 1
  apply List.ext_getElem?
  intro i
  by_cases hi : i < xs.length
  · obtain ⟨s, e, hseg, h1, h2, -⟩ := C27_segments (c := c) (by omega) hi
    obtain ⟨p, q, f, g1, g2, g3, g4⟩ := r3 s e i hseg h1 h2
    obtain ⟨y, y1, y2⟩ := o3 s e i hseg h1 h2
    rw [y1, List.getElem?_map, g1, Option.map_some, ← y2]
    cases t with
    | pre => exact g2
    | suf => exact g3
    | full => exact g4
  · rw [List.getElem?_eq_none (by omega), List.getElem?_eq_none (by simp; omega)]

/-- C29: a first control bit that is set is not ignored: the value of the root is added to the first row. -/
theorem C29_first_bit : aggTree .pre (· + ·) 0 [1, 2, 4, 8] [true, false, false, false] = .ok [9, 2, 4, 8] := by
  decide +kernel

end Agg
end SecJoin
