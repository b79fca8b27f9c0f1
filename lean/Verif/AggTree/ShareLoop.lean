import Verif.AggTree.ShareEval
/-!
# The loops of the tree on shares
-/
namespace SecJoin
namespace Agg
open Gmw.Wires (Col Mem Env Cir mapCall leafCall)

/-! ## Lists of both parties -/

section
variable {α β γ : Type} {g : α → β → γ}

theorem zw_unzip : ∀ (a : List α) (b : List β), a.length = b.length →
    unzipAlt (List.zipWith g a b) = (List.zipWith g (unzipAlt a).1 (unzipAlt b).1, List.zipWith g (unzipAlt a).2 (unzipAlt b).2)
  | [], [], _ => rfl
  | [a], [b], _ => rfl
  | a :: a' :: l, b :: b' :: m, h => by
    simp only [List.zipWith_cons_cons, unzipAlt, zw_unzip l m (by simpa using h)]
  | [], _ :: _, h => by simp at h
  | _ :: _, [], h => by simp at h
  | [_], _ :: _ :: _, h => by simp at h
  | _ :: _ :: _, [_], h => by simp at h

theorem zw_zipAlt : ∀ (a c : List α) (b d : List β), zipAlt (List.zipWith g a b) (List.zipWith g c d) = List.zipWith g (zipAlt a c) (zipAlt b d)
  | [], c, b, d => by simp [zipAlt]
  | a :: as, [], b, d => by cases b <;> simp [zipAlt]
  | a :: as, c :: cs, [], d => by simp [zipAlt]
  | a :: as, c :: cs, b :: bs, [] => by simp [zipAlt]
  | a :: as, c :: cs, b :: bs, d :: ds => by
    simp only [List.zipWith_cons_cons, zipAlt, zw_zipAlt as cs bs ds]

theorem zw_over {s0 d0 o0 : List α} {s1 d1 o1 : List β} (h0 : overwrite s0 d0 = .ok o0) (h1 : overwrite s1 d1 = .ok o1)
    (hs : s0.length = s1.length) (hd : d0.length = d1.length) : overwrite (List.zipWith g s0 s1) (List.zipWith g d0 d1) = .ok (List.zipWith g o0 o1) := by
  unfold overwrite at *
  split at h0
  · rename_i h
    rw [if_pos (by omega)] at h1
    cases h0
    cases h1
    rw [if_pos (by simp; omega)]
    congr 1
    rw [List.zipWith_append hs, List.drop_zipWith]
    simp [hs]
  · cases h0

theorem zw_copyAt {s0 d0 o0 : List α} {s1 d1 o1 : List β} {a b n : Nat} (h0 : copyAt s0 d0 a b n = .ok o0) (h1 : copyAt s1 d1 a b n = .ok o1)
    (hs : s0.length = s1.length) (hd : d0.length = d1.length) : copyAt (List.zipWith g s0 s1) (List.zipWith g d0 d1) a b n = .ok (List.zipWith g o0 o1) := by
  unfold copyAt at *
  split at h0
  · rename_i h
    rw [if_pos (by omega)] at h1
    cases h0
    cases h1
    rw [if_pos (by simp only [List.length_zipWith]; omega)]
    congr 1
    rw [List.zipWith_append (by simp [hd, hs]), List.zipWith_append (by simp [hd])]
    simp only [List.drop_zipWith, List.take_zipWith]
  · cases h0

theorem zw_replicate (n : Nat) (x : α) (y : β) : List.zipWith g (List.replicate n x) (List.replicate n y) = List.replicate n (g x y) := by
  induction n with
  | zero => rfl
  | succ n ih => simp [List.replicate_succ, ih]

theorem copyAt_len {s d o : List α} {a b n : Nat} (h : copyAt s d a b n = .ok o) : o.length = d.length := by
  unfold copyAt at h
  split at h
  · cases h
    simp
    omega
  · cases h

end

section
variable {α : Type} {g : α → α → α}

theorem zw_copySplit {s0 s1 o0 o1 : List α × List α} {z : α} {a b n : Nat} (hz : g z z = z) (h0 : copySplit z s0 a b n = .ok o0)
    (h1 : copySplit z s1 a b n = .ok o1) (hl : s0.1.length = s1.1.length) (hr : s0.2.length = s1.2.length) :
    copySplit z (List.zipWith g s0.1 s1.1, List.zipWith g s0.2 s1.2) a b n = .ok (List.zipWith g o0.1 o1.1, List.zipWith g o0.2 o1.2) := by
  unfold copySplit at *
  have el : (List.zipWith g s0.1 s1.1).length + (List.zipWith g s0.2 s1.2).length = s0.1.length + s0.2.length := by simp [hl, hr]
  have er : s1.1.length + s1.2.length = s0.1.length + s0.2.length := by omega
  dsimp only at *
  rw [er] at h1
  rw [el]
  cases e1 : throwIf (decide (a % 16 ≠ 0)) with
  | error e => rw [e1] at h0; cases h0
  | ok u1 =>
  cases e2 : throwIf (decide (b % 16 ≠ 0)) with
  | error e => rw [e1, ok_bind, e2] at h0; cases h0
  | ok u2 =>
  cases e3 : throwIf (decide ((s0.1.length + s0.2.length - a) % 16 ≠ 0)) with
  | error e => rw [e1, ok_bind, e2, ok_bind, e3] at h0; cases h0
  | ok u3 =>
  cases e4 : throwIf (decide (n < s0.1.length + s0.2.length - a + b)) with
  | error e => rw [e1, ok_bind, e2, ok_bind, e3, ok_bind, e4] at h0; cases h0
  | ok u4 =>
  rw [e1, ok_bind, e2, ok_bind, e3, ok_bind, e4, ok_bind] at h0 h1
  rw [ok_bind, ok_bind, ok_bind, ok_bind]
  cases c0 : copyAt s0.1 (List.replicate (divCeil n 2) z) (a / 16 * 8) (b / 16 * 8) ((s0.1.length + s0.2.length - a) / 16 * 8) with
  | error e => rw [c0] at h0; cases h0
  | ok l0 =>
  cases c1 : copyAt s1.1 (List.replicate (divCeil n 2) z) (a / 16 * 8) (b / 16 * 8) ((s0.1.length + s0.2.length - a) / 16 * 8) with
  | error e => rw [c1] at h1; cases h1
  | ok l1 =>
  cases d0 : copyAt s0.2 (List.replicate (n - divCeil n 2) z) (a / 16 * 8) (b / 16 * 8) ((s0.1.length + s0.2.length - a) / 16 * 8) with
  | error e => rw [c0, ok_bind, d0] at h0; cases h0
  | ok r0 =>
  cases d1 : copyAt s1.2 (List.replicate (n - divCeil n 2) z) (a / 16 * 8) (b / 16 * 8) ((s0.1.length + s0.2.length - a) / 16 * 8) with
  | error e => rw [c1, ok_bind, d1] at h1; cases h1
  | ok r1 =>
  rw [c0, ok_bind, d0, ok_bind] at h0
  rw [c1, ok_bind, d1, ok_bind] at h1
  cases h0
  cases h1
  have k1 := zw_copyAt (g := g) c0 c1 hl rfl
  have k2 := zw_copyAt (g := g) d0 d1 hr rfl
  rw [zw_replicate, hz] at k1 k2
  rw [k1, ok_bind, k2, ok_bind]

theorem copySplit_ok {src : List α × List α} {z : α} {k R : Nat} (h1 : R < 2 ^ k) (h2 : R % 16 = 0) (h3 : 16 ≤ 2 ^ k)
    (hl : src.1.length = (2 ^ k + R) / 2) (hr : src.2.length = (2 ^ k + R) / 2) :
    ∃ o, copySplit z src (R * 2) R (2 ^ k) = .ok o ∧ o.1.length = 2 ^ k / 2 ∧ o.2.length = 2 ^ k / 2 := by
  have hk : 4 ≤ k := by
    by_contra hcon
    have : 2 ^ k ≤ 2 ^ 3 := Nat.pow_le_pow_right (by omega) (by omega)
    omega
  have h16 : 2 ^ k % 16 = 0 := by
    obtain ⟨j, rfl⟩ : ∃ j, k = j + 4 := ⟨k - 4, by omega⟩
    rw [Nat.pow_add]; omega
  have e1 : R * 2 / 16 * 8 = R := by omega
  have e2 : R / 16 * 8 = R / 2 := by omega
  have e3 : src.1.length + src.2.length - R * 2 = 2 ^ k - R := by omega
  have e4 : (2 ^ k - R) / 16 * 8 = (2 ^ k - R) / 2 := by omega
  have e5 : divCeil (2 ^ k) 2 = 2 ^ k / 2 := by unfold divCeil; omega
  have e6 : 2 ^ k - 2 ^ k / 2 = 2 ^ k / 2 := by omega
  obtain ⟨l, x1, y1, -⟩ := copyAt_ok (src := src.1) (dst := List.replicate (2 ^ k / 2) z)
    (a := R) (b := R / 2) (n := (2 ^ k - R) / 2) (by omega) (by simp; omega)
  obtain ⟨r, x2, y2, -⟩ := copyAt_ok (src := src.2) (dst := List.replicate (2 ^ k / 2) z)
    (a := R) (b := R / 2) (n := (2 ^ k - R) / 2) (by omega) (by simp; omega)
  refine ⟨(l, r), ?_, by simpa using y1, by simpa using y2⟩
  unfold copySplit
  simp only [e3]
  rw [decide_eq_false (by omega), throwIf_false, ok_bind, decide_eq_false (by omega), throwIf_false, ok_bind, decide_eq_false (by omega), throwIf_false,
    ok_bind, decide_eq_false (by omega), throwIf_false, ok_bind, e1, e2, e4, e5, e6, x1, ok_bind, x2, ok_bind]

theorem newVals_len {n k R r : Nat} {c : Bool} {zero : α} (hR1 : 1 ≤ R)
    (hc : c = true ∧ r = 0 ∧ R = 2 ^ k ∨ c = false ∧ r = R ∧ R < 2 ^ k ∧ R % 16 = 0 ∧ 16 ≤ 2 ^ k)
    {ds : List (List α × List α)} {d0 : List α × List α} (h0 : ds[0]? = some d0) (l0 : d0.1.length = 2 * R / 2) (l0' : d0.2.length = 2 * R / 2)
    (h1 : c = false → ∃ d1, ds[1]? = some d1 ∧ d1.1.length = 2 ^ k / 2 ∧ d1.2.length = 2 ^ k / 2) :
    ∃ t, newVals ⟨n, 2 ^ k + R, r, c, 2 * R :: 2 ^ k :: halves k (2 ^ k)⟩ zero ds = .ok t ∧ t.1.length = (2 ^ k + R) / 2 ∧ t.2.length = (2 ^ k + R) / 2 := by
  have hr0 : rd ds 0 = .ok d0 := by unfold rd; rw [h0]
  rcases hc with ⟨rfl, rfl, h⟩ | ⟨rfl, rfl, g1, g2, g3⟩
  · refine ⟨d0, ?_, by omega, by omega⟩
    unfold newVals
    rw [hr0, ok_bind]
    rfl
  · obtain ⟨d1, hd, m1, m2⟩ := h1 rfl
    have hr1 : rd ds 1 = .ok d1 := by unfold rd; rw [hd]
    have hk : 4 ≤ k := by
      by_contra hcon
      have : 2 ^ k ≤ 2 ^ 3 := Nat.pow_le_pow_right (by omega) (by omega)
      omega
    have h16 : 2 ^ k % 16 = 0 := by
      obtain ⟨j, rfl⟩ : ∃ j, k = j + 4 := ⟨k - 4, by omega⟩
      rw [Nat.pow_add]; omega
    have e1 : r / 16 * 8 = r / 2 := by omega
    have e2 : 2 * r / 16 * 8 = r := by omega
    have e3 : (2 ^ k - r) / 16 * 8 = (2 ^ k - r) / 2 := by omega
    obtain ⟨a, a1, a2, -⟩ := copyAt_ok (src := d1.1) (dst := List.replicate ((2 ^ k + r) / 2) zero) (a := r / 2) (b := r) (n := (2 ^ k - r) / 2)
      (by omega) (by simp; omega)
    obtain ⟨b, b1, b2, -⟩ := copyAt_ok (src := d1.2) (dst := List.replicate ((2 ^ k + r) / 2) zero) (a := r / 2) (b := r) (n := (2 ^ k - r) / 2)
      (by omega) (by simp; omega)
    rw [List.length_replicate] at a2 b2
    obtain ⟨a', a3, a4, -⟩ := copyAt_ok (src := d0.1) (dst := a) (a := 0) (b := 0) (n := r) (by omega) (by omega)
    obtain ⟨b', b3, b4, -⟩ := copyAt_ok (src := d0.2) (dst := b) (a := 0) (b := 0) (n := r) (by omega) (by omega)
    refine ⟨(a', b'), ?_, a4.trans a2, b4.trans b2⟩
    unfold newVals
    rw [hr0, ok_bind]
    simp only [Bool.false_eq_true, if_false]
    rw [hr1, ok_bind]
    have q0 : rd (2 * r :: 2 ^ k :: halves k (2 ^ k)) 0 = .ok (2 * r) := rfl
    have q1 : rd (2 * r :: 2 ^ k :: halves k (2 ^ k)) 1 = .ok (2 ^ k) := rfl
    rw [q0, ok_bind, q1, ok_bind, e1, e2, e3, a1, ok_bind, b1, ok_bind, a3, ok_bind, b3, ok_bind]

theorem zw_newVals {p : Params} {z : α} {ds0 ds1 : List (List α × List α)} {t0 t1 : List α × List α} (hz : g z z = z)
    (h0 : newVals p z ds0 = .ok t0) (h1 : newVals p z ds1 = .ok t1) (hl : ∀ (i : Nat) (d0 d1 : List α × List α), ds0[i]? = some d0 → ds1[i]? = some d1 →
      d0.1.length = d1.1.length ∧ d0.2.length = d1.2.length) :
    newVals p z (List.zipWith (fun a b => (List.zipWith g a.1 b.1, List.zipWith g a.2 b.2)) ds0 ds1) =
      .ok (List.zipWith g t0.1 t1.1, List.zipWith g t0.2 t1.2) := by
  unfold newVals at *
  cases a0 : ds0[0]? with
  | none => rw [show rd ds0 0 = .error .ub by unfold rd; rw [a0]] at h0; cases h0
  | some x0 =>
  cases a1 : ds1[0]? with
  | none => rw [show rd ds1 0 = .error .ub by unfold rd; rw [a1]] at h1; cases h1
  | some x1 =>
  rw [show rd ds0 0 = .ok x0 by unfold rd; rw [a0], ok_bind] at h0
  rw [show rd ds1 0 = .ok x1 by unfold rd; rw [a1], ok_bind] at h1
  rw [show rd (List.zipWith (fun a b => (List.zipWith g a.1 b.1, List.zipWith g a.2 b.2)) ds0 ds1) 0 = .ok (List.zipWith g x0.1 x1.1, List.zipWith g x0.2 x1.2) by
    unfold rd; rw [List.getElem?_zipWith, a0, a1], ok_bind]
  obtain ⟨m1, m2⟩ := hl 0 x0 x1 a0 a1
  cases hc : p.complete with
  | true =>
    rw [hc, if_pos rfl] at h0 h1
    cases h0
    cases h1
    rfl
  | false =>
    rw [hc] at h0 h1
    simp only [Bool.false_eq_true, if_false] at h0 h1 ⊢
    cases b0 : ds0[1]? with
    | none => rw [show rd ds0 1 = .error .ub by unfold rd; rw [b0]] at h0; cases h0
    | some y0 =>
    cases b1 : ds1[1]? with
    | none => rw [show rd ds1 1 = .error .ub by unfold rd; rw [b1]] at h1; cases h1
    | some y1 =>
    rw [show rd ds0 1 = .ok y0 by unfold rd; rw [b0], ok_bind] at h0
    rw [show rd ds1 1 = .ok y1 by unfold rd; rw [b1], ok_bind] at h1
    rw [show rd (List.zipWith (fun a b => (List.zipWith g a.1 b.1, List.zipWith g a.2 b.2)) ds0 ds1) 1 = .ok (List.zipWith g y0.1 y1.1, List.zipWith g y0.2 y1.2) by
      unfold rd; rw [List.getElem?_zipWith, b0, b1], ok_bind]
    obtain ⟨n1, n2⟩ := hl 1 y0 y1 b0 b1
    cases e0 : rd p.sizes 0 with
    | error e => rw [e0] at h0; cases h0
    | ok s0 =>
    cases e1 : rd p.sizes 1 with
    | error e => rw [e0, ok_bind, e1] at h0; cases h0
    | ok s1 =>
    rw [e0, ok_bind, e1, ok_bind] at h0 h1
    rw [ok_bind, ok_bind]
    cases c0 : copyAt y0.1 (List.replicate (p.n16 / 2) z) (p.r / 16 * 8) (s0 / 16 * 8) ((s1 - p.r) / 16 * 8) with
    | error e => rw [c0] at h0; cases h0
    | ok l0 =>
    cases c1 : copyAt y1.1 (List.replicate (p.n16 / 2) z) (p.r / 16 * 8) (s0 / 16 * 8) ((s1 - p.r) / 16 * 8) with
    | error e => rw [c1] at h1; cases h1
    | ok l1 =>
    cases d0 : copyAt y0.2 (List.replicate (p.n16 / 2) z) (p.r / 16 * 8) (s0 / 16 * 8) ((s1 - p.r) / 16 * 8) with
    | error e => rw [c0, ok_bind, d0] at h0; cases h0
    | ok r0 =>
    cases d1 : copyAt y1.2 (List.replicate (p.n16 / 2) z) (p.r / 16 * 8) (s0 / 16 * 8) ((s1 - p.r) / 16 * 8) with
    | error e => rw [c1, ok_bind, d1] at h1; cases h1
    | ok r1 =>
    rw [c0, ok_bind, d0, ok_bind] at h0
    rw [c1, ok_bind, d1, ok_bind] at h1
    cases f0 : copyAt x0.1 l0 0 0 (s0 / 16 * 8) with
    | error e => rw [f0] at h0; cases h0
    | ok u0 =>
    cases f1 : copyAt x1.1 l1 0 0 (s0 / 16 * 8) with
    | error e => rw [f1] at h1; cases h1
    | ok u1 =>
    cases g0 : copyAt x0.2 r0 0 0 (s0 / 16 * 8) with
    | error e => rw [f0, ok_bind, g0] at h0; cases h0
    | ok v0 =>
    cases g1 : copyAt x1.2 r1 0 0 (s0 / 16 * 8) with
    | error e => rw [f1, ok_bind, g1] at h1; cases h1
    | ok v1 =>
    rw [f0, ok_bind, g0, ok_bind] at h0
    rw [f1, ok_bind, g1, ok_bind] at h1
    cases h0
    cases h1
    have k1 := zw_copyAt (g := g) c0 c1 n1 rfl
    have k2 := zw_copyAt (g := g) d0 d1 n2 rfl
    rw [zw_replicate, hz] at k1 k2
    have k3 := zw_copyAt (g := g) f0 f1 m1 ((copyAt_len c0).trans (copyAt_len c1).symm)
    have k4 := zw_copyAt (g := g) g0 g1 m2 ((copyAt_len d0).trans (copyAt_len d1).symm)
    rw [k1, ok_bind, k2, ok_bind, k3, ok_bind, k4, ok_bind]

end

/-! ## The loops -/

/-- The columns of one half of a split level that both parties hold together. -/
def XS (h : H) (c : Sp (BitVec w × Bool) × Sp (BitVec w × Bool)) : List (BitVec w × Bool) × List (BitVec w × Bool) :=
  (X (c.1.1.get h) (c.2.1.get h), X (c.1.2.get h) (c.2.2.get h))

def XSV (h : H) (c : Sp (BitVec w) × Sp (BitVec w)) : List (BitVec w) × List (BitVec w) :=
  (XV (c.1.1.get h) (c.2.1.get h), XV (c.1.2.get h) (c.2.2.get h))

/-- The OLEs and the memory of the evaluations at a level with `n` pairs. -/
def TreeEnv.At (T : TreeEnv) (lvl n : Nat) : Prop :=
  0 < n ∧ ((T.upE lvl).Ok n T.up ∧ (T.upM0 lvl).Fits n ∧ (T.upM1 lvl).Fits n) ∧
    ((T.downE lvl).Ok n T.down ∧ (T.downM0 lvl).Fits n ∧ (T.downM1 lvl).Fits n)

def Both (t : AggType) (n : Nat) (c : Sp α × Sp α) : Prop := c.1.Len t n ∧ c.2.Len t n

/-- The levels from `lvl` on: the children and the levels above have the sizes that the evaluations expect. -/
def LevelsOk (T : TreeEnv) (t : AggType) : Nat → List Nat → List (Sp α × Sp α) → Prop
  | lvl, s :: _, [] => T.At lvl (s / 2)
  | lvl, s :: s' :: ss, p :: ps => T.At lvl (s / 2) ∧ s / 2 % 2 = 0 ∧ s / 2 / 2 ≤ s' / 2 ∧ Both t (s' / 2) p ∧ LevelsOk T t (lvl + 1) (s' :: ss) ps
  | _, _, _ => False

section
variable {w : Nat} {T : TreeEnv} {t : AggType} {f : BitVec w → BitVec w → BitVec w}

theorem over_len {s d o : List α} (h : overwrite s d = .ok o) : o.length = d.length := by
  unfold overwrite at h
  split at h
  · cases h; simp; omega
  · cases h

theorem onHalves_ok {F G : Res (List α)} (hF : t.hasPre = true → ∃ x, F = .ok x) (hG : t.hasSuf = true → ∃ x, G = .ok x) :
    ∃ l : Lv α, onHalves t F G = .ok l ∧ (t.hasPre = true → F = .ok l.pre) ∧ (t.hasSuf = true → G = .ok l.suf) := by
  unfold onHalves
  cases hp : t.hasPre with
  | false =>
    cases hs : t.hasSuf with
    | false => exact ⟨⟨[], []⟩, rfl, fun h => (by cases h), fun h => (by cases h)⟩
    | true =>
      obtain ⟨x, hx⟩ := hG hs
      exact ⟨⟨[], x⟩, by simp [hx, ok_bind], fun h => (by cases h), fun _ => hx⟩
  | true =>
    obtain ⟨y, hy⟩ := hF hp
    cases hs : t.hasSuf with
    | false => exact ⟨⟨y, []⟩, by simp [hy, ok_bind], fun _ => hy, fun h => (by cases h)⟩
    | true =>
      obtain ⟨x, hx⟩ := hG hs
      exact ⟨⟨y, x⟩, by simp [hx, hy, ok_bind], fun _ => hy, fun _ => hx⟩

/-- `overwrite` for half `h`. -/
theorem splitOver_ok {par : Lv α} {p : Sp α} {n m : Nat} (hpar : par.Len t n) (hp : p.Len t m) (hn : n % 2 = 0) (hm : n / 2 ≤ m) :
    ∃ q, splitOver t par p = .ok q ∧ q.Len t m ∧ ∀ h, t.has h = true →
      overwrite (unzipAlt (par.get h)).1 (p.1.get h) = .ok (q.1.get h) ∧ overwrite (unzipAlt (par.get h)).2 (p.2.get h) = .ok (q.2.get h) := by
  have key : ∀ h, t.has h = true → (∃ x, overwrite (unzipAlt (par.get h)).1 (p.1.get h) = .ok x) ∧ ∃ x, overwrite (unzipAlt (par.get h)).2 (p.2.get h) = .ok x := by
    intro h hh
    obtain ⟨u1, u2⟩ := unzipAlt_length (par.get h)
    have e1 := hpar h hh
    have e2 := hp.1 h hh
    have e3 := hp.2 h hh
    obtain ⟨x, hx, -⟩ := overwrite_ok (src := (unzipAlt (par.get h)).1) (dst := p.1.get h) (by omega)
    obtain ⟨y, hy, -⟩ := overwrite_ok (src := (unzipAlt (par.get h)).2) (dst := p.2.get h) (by omega)
    exact ⟨⟨x, hx⟩, ⟨y, hy⟩⟩
  obtain ⟨l, l1, l2, l3⟩ := onHalves_ok (t := t) (F := overwrite (unzipAlt par.pre).1 p.1.pre) (G := overwrite (unzipAlt par.suf).1 p.1.suf)
    (fun h => (key .pre h).1) (fun h => (key .suf h).1)
  obtain ⟨r, r1, r2, r3⟩ := onHalves_ok (t := t) (F := overwrite (unzipAlt par.pre).2 p.2.pre) (G := overwrite (unzipAlt par.suf).2 p.2.suf)
    (fun h => (key .pre h).2) (fun h => (key .suf h).2)
  have all : ∀ h, t.has h = true →
      overwrite (unzipAlt (par.get h)).1 (p.1.get h) = .ok (l.get h) ∧ overwrite (unzipAlt (par.get h)).2 (p.2.get h) = .ok (r.get h) := by
    intro h hh
    cases h with
    | pre => exact ⟨l2 hh, r2 hh⟩
    | suf => exact ⟨l3 hh, r3 hh⟩
  refine ⟨(l, r), by unfold splitOver; rw [l1, ok_bind, r1, ok_bind], ⟨fun h hh => ?_, fun h hh => ?_⟩, all⟩
  · exact (over_len (all h hh).1).trans (hp.1 h hh)
  · exact (over_len (all h hh).2).trans (hp.2 h hh)

/-- The levels are those that the loop of `downstream` expects. -/
def DLevels (T : TreeEnv) (t : AggType) : Nat → List Nat → List (Sp α × Sp α) → Prop
  | lvl, s :: _, [c] => T.At lvl (s / 2) ∧ Both t (s / 2) c
  | lvl, s :: s' :: ss, c :: p :: ps => T.At lvl (s / 2) ∧ Both t (s / 2) c ∧ s / 2 % 2 = 0 ∧ s / 2 / 2 ≤ s' / 2 ∧ DLevels T t (lvl + 1) (s' :: ss) (p :: ps)
  | _, _, _ => False

theorem upLoop_ok (hk : CirOk (upstreamCir t) w f T.up) : ∀ (ps : List (Sp (BitVec w × Bool) × Sp (BitVec w × Bool))) (lvl s : Nat) (ss : List Nat)
    (c : Sp (BitVec w × Bool) × Sp (BitVec w × Bool)), LevelsOk T t lvl (s :: ss) ps → Both t (s / 2) c →
    ∃ ls root, upLoop T w t lvl (s :: ss) c ps = .ok (ls, root) ∧ DLevels T t lvl (s :: ss) ls ∧ ls.length = ps.length + 1 ∧ ls.head? = some c ∧
      root.1.Len t ((s :: ss).getD ps.length 0 / 2) ∧ root.2.Len t ((s :: ss).getD ps.length 0 / 2) ∧ ∀ h, t.has h = true →
        sUpFrom (dirOf f h) (XS h c) (ps.map (XS h)) = .ok (ls.map (XS h), X (root.1.get h) (root.2.get h))
  | [], lvl, s, ss, c, hL, hc => by
    have hA : T.At lvl (s / 2) := by cases ss <;> exact hL
    obtain ⟨hn, ⟨hE, hM0, hM1⟩, -⟩ := id hA
    obtain ⟨o0, o1, e, u0, u1, ux⟩ := up_ok hn hk hE hM0 hM1 hc.1 hc.2
    refine ⟨[c], (upRead t (ofCols w (upstreamCir t).outs o0), upRead t (ofCols w (upstreamCir t).outs o1)),
      by unfold upLoop upEval; rw [e]; rfl, by cases ss <;> exact ⟨hA, hc⟩, rfl, rfl, u0, u1, fun h hh => ?_⟩
    have l1 := hc.1.1 h hh
    have l2 := hc.1.2 h hh
    have l3 := hc.2.1 h hh
    have l4 := hc.2.2 h hh
    rw [List.map_nil, sUpFrom, decide_eq_false (by simp [XS, l1, l2, l3, l4]), throwIf_false, ok_bind]
    have ex : List.zipWith (dirOf f h).up (XS h c).1 (XS h c).2 = _ := (ux h hh).symm
    rw [ex]
    rfl
  | p :: ps, lvl, s, [], c, hL, hc => hL.elim
  | p :: ps, lvl, s, s' :: ss, c, ⟨hA, hev, hle, hp, hL⟩, hc => by
    obtain ⟨hn, ⟨hE, hM0, hM1⟩, -⟩ := id hA
    obtain ⟨o0, o1, e, u0, u1, ux⟩ := up_ok hn hk hE hM0 hM1 hc.1 hc.2
    obtain ⟨q0, q1, q2, q3⟩ := splitOver_ok u0 hp.1 hev hle
    obtain ⟨r0, r1, r2, r3⟩ := splitOver_ok u1 hp.2 hev hle
    obtain ⟨ls, root, i1, i2, i3, i4, i5, i6, i7⟩ := upLoop_ok hk ps (lvl + 1) s' ss (q0, r0) hL ⟨q2, r2⟩
    refine ⟨c :: ls, root, ?_, ?_, by simp [i3], rfl, ?_, ?_, fun h hh => ?_⟩
    · unfold upLoop upEval
      rw [e, ok_bind]
      simp only [ok_bind, q1, r1, i1]
    · cases ls with
      | nil => simp at i3
      | cons l ls => exact ⟨hA, hc, hev, hle, i2⟩
    · simpa using i5
    · simpa using i6
    · have l1 := hc.1.1 h hh
      have l2 := hc.1.2 h hh
      have l3 := hc.2.1 h hh
      have l4 := hc.2.2 h hh
      rw [List.map_cons, sUpFrom, decide_eq_false (by simp [XS, l1, l2, l3, l4]), throwIf_false, ok_bind]
      have m0 := u0 h hh
      have m1 := u1 h hh
      have ex : List.zipWith (dirOf f h).up (XS h c).1 (XS h c).2 = _ := (ux h hh).symm
      rw [ex, zw_unzip _ _ (by omega)]
      have v0 := unzipAlt_length ((upRead t (ofCols w (upstreamCir t).outs o0)).get h)
      have v1 := unzipAlt_length ((upRead t (ofCols w (upstreamCir t).outs o1)).get h)
      have z1 := zw_over (g := xorN) (q3 h hh).1 (r3 h hh).1 (by omega) ((hp.1.1 h hh).trans (hp.2.1 h hh).symm)
      have z2 := zw_over (g := xorN) (q3 h hh).2 (r3 h hh).2 (by omega) ((hp.1.2 h hh).trans (hp.2.2 h hh).symm)
      have z1' : overwrite (X (unzipAlt ((upRead t (ofCols w (upstreamCir t).outs o0)).get h)).1 (unzipAlt ((upRead t (ofCols w (upstreamCir t).outs o1)).get h)).1) (XS h p).1 = _ := z1
      have z2' : overwrite (X (unzipAlt ((upRead t (ofCols w (upstreamCir t).outs o0)).get h)).2 (unzipAlt ((upRead t (ofCols w (upstreamCir t).outs o1)).get h)).2) (XS h p).2 = _ := z2
      have i7' := i7 h hh
      simp only [z1', z2', ok_bind]
      have : (XS h (q0, r0)) = (X (q0.1.get h) (r0.1.get h), X (q0.2.get h) (r0.2.get h)) := rfl
      rw [this] at i7'
      rw [i7', ok_bind]
      rfl

theorem merge_len {n : Nat} {c : Sp α} {v : Sp β} {m : Nat} (hc : c.Len t n) (hv : v.Len t m) (hn : n % 2 = 0) (hm : n / 2 ≤ m) : (merge t c v).Len t n := by
  intro h hh
  have e1 := hc.1 h hh
  have e2 := hv.1 h hh
  have e3 := hv.2 h hh
  cases h with
  | pre =>
    simp only [AggType.has] at hh
    simp only [Lv.get] at e1 e2 e3
    simp only [merge, Lv.get, hh, if_true, zipAlt_length, List.length_take]
    omega
  | suf =>
    simp only [AggType.has] at hh
    simp only [Lv.get] at e1 e2 e3
    simp only [merge, Lv.get, hh, if_true, zipAlt_length, List.length_take]
    omega

theorem merge_get {c : Sp α} {v : Sp β} {h : H} (hh : t.has h = true) :
    (merge t c v).get h = zipAlt ((v.1.get h).take ((c.1.get h).length / 2)) ((v.2.get h).take ((c.1.get h).length / 2)) := by
  cases h <;> simp_all [merge, Lv.get, AggType.has]

theorem downLoop_ok (hk : CirOk (downstreamCir t) w f T.down) {root : Lv (BitVec w) × Lv (BitVec w)} :
    ∀ (ls : List (Sp (BitVec w × Bool) × Sp (BitVec w × Bool))) (lvl : Nat) (sizes : List Nat), DLevels T t lvl sizes ls →
    root.1.Len t (sizes.getD (ls.length - 1) 0 / 2) → root.2.Len t (sizes.getD (ls.length - 1) 0 / 2) →
    ∃ ds, downLoop T w t root lvl sizes ls = .ok ds ∧ ds.length = ls.length ∧ (∀ (i : Nat) d s, ds[i]? = some d → sizes[i]? = some s → Both t (s / 2) d) ∧
      ∀ h, t.has h = true → sDownFrom (dirOf f h) (XV (root.1.get h) (root.2.get h)) (ls.map (XS h)) = .ok (ds.map (XSV h))
  | [], lvl, sizes, hL, _, _ => by cases sizes with
    | nil => exact hL.elim
    | cons s ss => cases ss <;> exact hL.elim
  | [c], lvl, [], hL, _, _ => hL.elim
  | c :: p :: ps, lvl, [], hL, _, _ => hL.elim
  | c :: p :: ps, lvl, [s], hL, _, _ => hL.elim
  | [c], lvl, s :: ss, hL, h0, h1 => by
    obtain ⟨⟨hn, -, hE, hM0, hM1⟩, hc⟩ : T.At lvl (s / 2) ∧ Both t (s / 2) c := by cases ss <;> exact hL
    obtain ⟨o0, o1, e, u0, u1, ux⟩ := down_ok hn hk hE hM0 hM1 hc.1 hc.2 h0 h1
    refine ⟨_, by unfold downLoop downEval; rw [e]; rfl, rfl, fun i d s' hd hs => ?_, fun h hh => ?_⟩
    · cases i with
      | zero => simp only [List.getElem?_cons_zero, Option.some.injEq] at hd hs; subst hd; subst hs; exact ⟨u0, u1⟩
      | succ i => simp at hd
    · have l1 := hc.1.1 h hh
      have l2 := hc.1.2 h hh
      have l3 := hc.2.1 h hh
      have l4 := hc.2.2 h hh
      have l5 : (root.1.get h).length = s / 2 := h0 h hh
      have l6 : (root.2.get h).length = s / 2 := h1 h hh
      obtain ⟨x1, x2⟩ := ux h hh
      rw [List.map_cons, List.map_nil, sDownFrom, sDownLevel, decide_eq_false (by simp [XS, l1, l2, l3, l4]), throwIf_false, ok_bind,
        decide_eq_false (by simp [XS, l1, l3, l5, l6]), throwIf_false, ok_bind]
      dsimp only [XS]
      rw [← x1, ← x2]
      rfl
  | c :: p :: ps, lvl, s :: s' :: ss, ⟨hA, hc, hev, hle, hL⟩, h0, h1 => by
    obtain ⟨hn, -, hE, hM0, hM1⟩ := hA
    obtain ⟨ds, i1, i2, i3, i4⟩ := downLoop_ok hk (p :: ps) (lvl + 1) (s' :: ss) hL (by simpa using h0) (by simpa using h1)
    have dpos : 0 < ds.length := by rw [i2]; simp
    have hd := i3 0 ds[0] s' (by simp [dpos]) rfl
    obtain ⟨o0, o1, e, u0, u1, ux⟩ := down_ok hn hk hE hM0 hM1 hc.1 hc.2 (merge_len hc.1 hd.1 hev hle) (merge_len hc.2 hd.2 hev hle)
    refine ⟨_ :: ds, by
      unfold downLoop
      rw [i1, ok_bind, rd_ok dpos, ok_bind]
      unfold downEval
      rw [e]
      rfl, by simp [i2], fun i d s' hd' hs => ?_, fun h hh => ?_⟩
    · cases i with
      | zero => simp only [List.getElem?_cons_zero, Option.some.injEq] at hd' hs; subst hd'; subst hs; exact ⟨u0, u1⟩
      | succ i => exact i3 i d s' (by simpa using hd') (by simpa using hs)
    · have l1 := hc.1.1 h hh
      have l2 := hc.1.2 h hh
      have l3 := hc.2.1 h hh
      have l4 := hc.2.2 h hh
      obtain ⟨x1, x2⟩ := ux h hh
      rw [List.map_cons, List.map_cons, sDownFrom, ← List.map_cons, i4 h hh, ok_bind,
        rd_ok (show 0 < (ds.map (XSV h)).length by simpa using dpos), ok_bind]
      have em : zipAlt ((ds.map (XSV h))[0]'(by simpa using dpos)).1 ((ds.map (XSV h))[0]'(by simpa using dpos)).2 = zipAlt (XSV h ds[0]).1 (XSV h ds[0]).2 := by
        rw [List.getElem_map]
      have hpar : zipAlt (((ds.map (XSV h))[0]'(by simpa using dpos)).1.take ((XS h c).1.length / 2))
          (((ds.map (XSV h))[0]'(by simpa using dpos)).2.take ((XS h c).1.length / 2)) =
          XV ((merge t c.1 ds[0].1).get h) ((merge t c.2 ds[0].2).get h) := by
        have : (XS h c).1.length = s / 2 := by simp [XS, l1, l3]
        rw [merge_get hh, merge_get hh, List.getElem_map, this, l1, l3]
        simp only [XSV, XV, List.take_zipWith]
        exact zw_zipAlt _ _ _ _
      dsimp only
      rw [hpar]
      have m1 := merge_len hc.1 hd.1 hev hle h hh
      have m2 := merge_len hc.2 hd.2 hev hle h hh
      rw [sDownLevel, decide_eq_false (by simp [XS, l1, l2, l3, l4]), throwIf_false, ok_bind,
        decide_eq_false (by simp [XS, l1, l3, m1, m2]), throwIf_false, ok_bind]
      dsimp only [XS]
      rw [← x1, ← x2]
      rfl

end

end Agg
end SecJoin
