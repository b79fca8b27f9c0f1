import Verif.Cor.F4VoleProps
/-!
# Debug checks of the silent VOLE: C74
-/
namespace SecJoin
namespace F4Vole

open F4 (Block elem selem gadd gmul GF4 block_ext)
open Cor (maskTwo maskTwo_elem RawF4)

/-! ## Lemmas -/

/-- The comparison of masked blocks is the relation of the correlation. -/
theorem masked_iff (w : Bool) (delta a b : Block) {c : BitVec 8} (hc : c.toNat < 4) : ∃ e, F4.mul w (delta &&& maskTwo) c = .ok e ∧
    ((a &&& maskTwo) = (e ^^^ (b &&& maskTwo)) ↔ Vole delta a b (selem c)) := by
  obtain ⟨e, he, hv⟩ := F4.C46_mul w (delta &&& maskTwo) hc
  refine ⟨e, he, ?_, ?_⟩
  · intro h k k0 hk
    have := congrArg (fun x => elem x k) h
    simp only [elem_xor] at this
    rw [hv k hk, maskTwo_elem _ hk, maskTwo_elem _ hk, maskTwo_elem _ hk, if_neg (by omega), if_neg (by omega), if_neg (by omega), gadd_comm] at this
    exact this
  · intro h
    apply block_ext
    intro k hk
    rw [elem_xor, hv k hk, maskTwo_elem _ hk, maskTwo_elem _ hk, maskTwo_elem _ hk]
    by_cases k0 : k = 0
    · subst k0; simp [gadd, gmul]
    · rw [if_neg k0, if_neg k0, if_neg k0, h k (by omega) hk, gadd_comm]

/-- A check that accepts exactly when `P` holds, and throws otherwise. -/
def Decides (x : Res Unit) (P : Prop) : Prop := (P → x = .ok ()) ∧ (¬ P → x = .error .throw)

theorem decides_throwIf {c : Bool} {P : Prop} (h : c = false ↔ P) : Decides (throwIf c) P := by
  constructor
  · intro p; rw [h.2 p]; rfl
  · intro p
    cases c with
    | true => rfl
    | false => exact absurd (h.1 rfl) p

theorem decides_bind {x : Res Unit} {f : Unit → Res Unit} {P Q : Prop} (hx : Decides x P) (hf : Decides (f ()) Q) : Decides (x >>= f) (P ∧ Q) := by
  constructor
  · rintro ⟨p, q⟩; rw [hx.1 p]; exact hf.1 q
  · intro h
    by_cases p : P
    · rw [hx.1 p]; exact hf.2 fun q => h ⟨p, q⟩
    · rw [hx.2 p]; rfl

theorem decides_congr {x : Res Unit} {P Q : Prop} (h : Decides x P) (e : P ↔ Q) : Decides x Q :=
  ⟨fun q => h.1 (e.2 q), fun q => h.2 fun p => q (e.1 p)⟩

theorem decides_mapRes {α : Type} {f : α → Res Unit} {P : α → Prop} {l : List α} (h : ∀ x ∈ l, Decides (f x) (P x)) :
    ((∀ x ∈ l, P x) → ∃ u, mapRes f l = .ok u) ∧ ((¬ ∀ x ∈ l, P x) → mapRes f l = .error .throw) := by
  induction l with
  | nil => exact ⟨fun _ => ⟨[], rfl⟩, fun h => absurd (by simp) h⟩
  | cons a t ih =>
    have ih := ih fun x hx => h x (by simp [hx])
    have ha := h a (by simp)
    constructor
    · intro hp
      obtain ⟨u, e⟩ := ih.1 fun x hx => hp x (by simp [hx])
      exact ⟨() :: u, by simp only [mapRes, ha.1 (hp a (by simp)), ok_bind, e]⟩
    · intro hp
      by_cases pa : P a
      · have : ¬ ∀ x ∈ t, P x := fun q => hp fun x hx => by
          rcases List.mem_cons.1 hx with rfl | hx
          · exact pa
          · exact q x hx
        simp only [mapRes, ha.1 pa, ok_bind, ih.2 this, err_bind]
      · simp only [mapRes, ha.2 pa, err_bind]

theorem decides_loop {α : Type} {f : α → Res Unit} {P : α → Prop} {l : List α} (h : ∀ x ∈ l, Decides (f x) (P x)) :
    Decides (do let _ ← mapRes f l; .ok ()) (∀ x ∈ l, P x) := by
  have := decides_mapRes h
  constructor
  · intro p
    obtain ⟨u, e⟩ := this.1 p
    rw [e]; rfl
  · intro p
    rw [this.2 p]; rfl

theorem zip_all {A B : List Block} (h : A.length = B.length) {Q : Block → Block → Prop} :
    (∀ x ∈ A.zip B, Q x.1 x.2) ↔ ∀ p, p < A.length → Q (A.getD p 0) (B.getD p 0) := by
  constructor
  · intro q p hp
    rw [getD_rd hp, getD_rd (h ▸ hp)]
    exact q _ (zip_mem hp (h ▸ hp))
  · intro q x hx
    obtain ⟨i, hi, rfl⟩ := List.getElem_of_mem hx
    have h1 : i < A.length := by simp at hi; omega
    have := q i h1
    rw [getD_rd h1, getD_rd (h ▸ h1)] at this
    simpa using this

theorem getD_nat {l : List Nat} {i : Nat} (h : i < l.length) : l.getD i 0 = l[i] := by
  rw [List.getD_eq_getElem?_getD, List.getElem?_eq_getElem h]; rfl

theorem eq_false_iff_bne {α : Type} [BEq α] [LawfulBEq α] {a b : α} : (a != b) = false ↔ a = b := by simp

/-! ## The check after the encoding -/

/-- **C74** (after the expansion). The sender's check ends normally exactly for valid correlations. -/
theorem C74_final (w : Bool) (delta : Block) (A B : List Block) :
    (RawF4 delta A B → checkFinal w delta A B = .ok ()) ∧ (¬ RawF4 delta A B → checkFinal w delta A B = .error .throw) := by
  have each : ∀ x ∈ A.zip B, Decides (checkFinalAt w delta x) (Vole delta x.1 x.2 (elem x.1 0)) := by
    intro x _
    obtain ⟨e, he, hiff⟩ := masked_iff w delta x.1 x.2 (low_lt x.1)
    have m2 : ∀ y : Block, F4.fromBlockF y &&& maskTwo = y &&& maskTwo := by
      intro y
      rw [fromBlockF_eq, BitVec.and_assoc, BitVec.and_self]
    simp only [checkFinalAt, he, ok_bind, m2]
    refine decides_throwIf ?_
    rw [eq_false_iff_bne, hiff, selem_low]
  have hl : Decides (throwIf (A.length != B.length)) (A.length = B.length) := decides_throwIf eq_false_iff_bne
  have := decides_bind (f := fun _ => do let _ ← mapRes (checkFinalAt w delta) (A.zip B); .ok ()) hl (decides_loop each)
  have := decides_congr this (Q := RawF4 delta A B) (by
    constructor
    · rintro ⟨h1, h2⟩
      exact ⟨h1, fun p hp k k0 hk => (zip_all h1 (Q := fun a b => Vole delta a b (elem a 0))).1 h2 p hp k k0 hk⟩
    · rintro ⟨h1, h2⟩
      exact ⟨h1, (zip_all h1 (Q := fun a b => Vole delta a b (elem a 0))).2 fun p hp k k0 hk => h2 p hp k k0 hk⟩)
  exact this

/-! ## The check of the base correlations of a batch -/

/-- **C74** (base correlations of a batch). -/
theorem C74_batch (w : Bool) (delta : Block) {r : Receiver} (hC : r.baseC.length = r.baseVoleCount) (hA : r.baseA.length = r.baseVoleCount)
    (h4 : ∀ c ∈ r.baseC, c.toNat < 4) (baseB : List Block) :
    Decides (checkBatchBase w delta r baseB) (baseB.length = r.baseVoleCount ∧
      ∀ i, i < r.baseVoleCount → Vole delta (r.baseA.getD i 0) (baseB.getD i 0) (selem (r.baseC.getD i 0))) := by
  have hl : Decides (throwIf (baseB.length != r.baseVoleCount)) (baseB.length = r.baseVoleCount) := decides_throwIf eq_false_iff_bne
  by_cases hb : baseB.length = r.baseVoleCount
  · have each : ∀ i ∈ List.range baseB.length, Decides (do
        let ci ← rd r.baseC i
        let ai ← rd r.baseA i
        let bi ← rd baseB i
        let e ← F4.mul w (delta &&& maskTwo) ci
        throwIf ((ai &&& maskTwo) != (e ^^^ (bi &&& maskTwo)))) (Vole delta (r.baseA.getD i 0) (baseB.getD i 0) (selem (r.baseC.getD i 0))) := by
      intro i hi
      have hi : i < baseB.length := List.mem_range.1 hi
      have i1 : i < r.baseC.length := by omega
      have i2 : i < r.baseA.length := by omega
      have ec : r.baseC.getD i 0 = r.baseC[i] := by simp [List.getD_eq_getElem?_getD, i1]
      obtain ⟨e, he, hiff⟩ := masked_iff w delta r.baseA[i] baseB[i] (h4 _ (List.getElem_mem i1))
      simp only [rd_ok i1, rd_ok i2, rd_ok hi, ok_bind, he]
      rw [ec, getD_rd i2, getD_rd hi]
      exact decides_throwIf (by rw [eq_false_iff_bne, hiff])
    refine decides_congr (decides_bind (f := fun _ => do let _ ← mapRes _ (List.range baseB.length); .ok ()) hl (decides_loop each)) ?_
    rw [hb]
    constructor
    · rintro ⟨h1, h2⟩; exact ⟨rfl, fun i hi => h2 i (List.mem_range.2 hi)⟩
    · rintro ⟨h1, h2⟩; exact ⟨rfl, fun i hi => h2 i (List.mem_range.1 hi)⟩
  · refine ⟨fun h => absurd h.1 hb, fun _ => ?_⟩
    simp only [checkBatchBase, throwIf_ne hb, err_bind]

/-! ## `checkRT` -/

/-- What `checkRT` asks of the leaves from position `j` on. -/
def GoodLeaves (delta : Block) (l : List (Block × Block)) (j : Nat) (pts : List Nat) : Prop :=
  ∀ q ab, l[q]? = some ab → (j + q ∉ pts → elem ab.1 0 = (false, false)) ∧ Vole delta ab.1 ab.2 (elem ab.1 0)

theorem goodLeaves_cons {delta : Block} {ab : Block × Block} {t : List (Block × Block)} {j : Nat} {pts : List Nat} :
    GoodLeaves delta (ab :: t) j pts ↔ ((j ∉ pts → elem ab.1 0 = (false, false)) ∧ Vole delta ab.1 ab.2 (elem ab.1 0)) ∧ GoodLeaves delta t (j + 1) pts := by
  constructor
  · intro h
    exact ⟨h 0 ab rfl, fun q x hx => by have := h (q + 1) x hx; rwa [show j + (q + 1) = j + 1 + q by omega] at this⟩
  · rintro ⟨h1, h2⟩ q x hx
    cases q with
    | zero => cases hx; exact h1
    | succ q => rw [show j + (q + 1) = j + 1 + q by omega]; exact h2 q x hx

theorem goodLeaves_tail {delta : Block} {t : List (Block × Block)} {j : Nat} {pts : List Nat} :
    GoodLeaves delta t (j + 1) (j :: pts) ↔ GoodLeaves delta t (j + 1) pts := by
  have : ∀ q, j + 1 + q ∉ j :: pts ↔ j + 1 + q ∉ pts := by
    intro q; simp only [List.mem_cons, not_or]
    constructor
    · exact fun h => h.2
    · exact fun h => ⟨by omega, h⟩
  simp only [GoodLeaves, this]

theorem checkLeaves_ok (w : Bool) (delta : Block) : ∀ (l : List (Block × Block)) (j : Nat) (iter : List Nat) (leaf : Nat) (failed : Bool),
    iter.Pairwise (· < ·) → (∀ p ∈ iter, j ≤ p) → leaf = iter.headD leaf → (iter = [] → leaf < j) →
    (GoodLeaves delta l j iter → checkLeaves w delta l j iter leaf failed = .ok failed) ∧
    (¬ GoodLeaves delta l j iter → checkLeaves w delta l j iter leaf failed = .error .throw ∨ checkLeaves w delta l j iter leaf failed = .ok true) ∧
    (failed = true → checkLeaves w delta l j iter leaf failed = .error .throw ∨ checkLeaves w delta l j iter leaf failed = .ok true)
  | [], j, iter, leaf, failed, _, _, _, _ => ⟨fun _ => rfl, fun h => absurd (fun q ab h => by simp at h) h, fun h => Or.inr (by rw [h]; rfl)⟩
  | (a, b) :: t, j, iter, leaf, failed, hs, hge, hhd, hem => by
    obtain ⟨e, he, hiff⟩ := masked_iff w delta a b (low_lt a)
    rw [selem_low] at hiff
    have zc : (a.setWidth 8 &&& 3 = 0) ↔ elem a 0 = (false, false) := fromBlockG_zero a
    have ef : ∀ f : Bool, (f || (a &&& maskTwo) != (e ^^^ (b &&& maskTwo))) = true ↔ f = true ∨ ¬ Vole delta a b (elem a 0) := by
      intro f
      rw [Bool.or_eq_true, bne_iff_ne, ne_eq, hiff]
    rw [goodLeaves_cons]
    by_cases hj : j = leaf
    · -- at a point
      cases iter with
      | nil => exact absurd (hem rfl) (by omega)
      | cons x iter =>
        have hx : leaf = x := hhd
        have hjx : j = x := by omega
        subst hjx
        rw [List.pairwise_cons] at hs
        have hd1 : (decide (j ≠ leaf) && (a.setWidth 8 &&& 3) != 0) = false := by simp [hj]
        have hrec : checkLeaves w delta ((a, b) :: t) j (j :: iter) leaf failed =
            checkLeaves w delta t (j + 1) iter (iter.headD leaf) (failed || (a &&& maskTwo) != (e ^^^ (b &&& maskTwo))) := by
          simp only [checkLeaves, he, ok_bind, hd1, throwIf_false, List.tail_cons]
          rw [if_pos hj]
        have ih := checkLeaves_ok w delta t (j + 1) iter (iter.headD leaf) (failed || (a &&& maskTwo) != (e ^^^ (b &&& maskTwo))) hs.2
          (fun p hp => by have := hs.1 p hp; omega) (by cases iter <;> rfl) (fun h => by rw [h]; show leaf < j + 1; omega)
        rw [hrec, goodLeaves_tail]
        refine ⟨?_, ?_, ?_⟩
        · rintro ⟨⟨-, h2⟩, h3⟩
          have : ((a &&& maskTwo) != (e ^^^ (b &&& maskTwo))) = false := by rw [eq_false_iff_bne, hiff]; exact h2
          rw [ih.1 h3, this, Bool.or_false]
        · intro h
          by_cases h2 : Vole delta a b (elem a 0)
          · exact ih.2.1 fun h3 => h ⟨⟨fun q => absurd (by simp) q, h2⟩, h3⟩
          · exact ih.2.2 ((ef failed).2 (Or.inr h2))
        · intro h
          exact ih.2.2 ((ef failed).2 (Or.inl h))
    · have hni : j ∉ iter := by
        intro hm
        cases iter with
        | nil => simp at hm
        | cons x iter =>
          have hx : leaf = x := hhd
          rw [List.pairwise_cons] at hs
          rcases List.mem_cons.1 hm with rfl | hm
          · exact hj hx.symm
          · have := hs.1 j hm
            have := hge x (by simp)
            omega
      by_cases hz : elem a 0 = (false, false)
      · have hd1 : (decide (j ≠ leaf) && (a.setWidth 8 &&& 3) != 0) = false := by rw [zc.2 hz]; simp
        have hrec : checkLeaves w delta ((a, b) :: t) j iter leaf failed =
            checkLeaves w delta t (j + 1) iter leaf (failed || (a &&& maskTwo) != (e ^^^ (b &&& maskTwo))) := by
          simp only [checkLeaves, he, ok_bind, hd1, throwIf_false, hj, if_false]
        have ih := checkLeaves_ok w delta t (j + 1) iter leaf (failed || (a &&& maskTwo) != (e ^^^ (b &&& maskTwo))) hs
          (fun p hp => by have := hge p hp; have : p ≠ j := fun e => hni (e ▸ hp); omega) hhd (fun h => by have := hem h; omega)
        rw [hrec]
        refine ⟨?_, ?_, ?_⟩
        · rintro ⟨⟨-, h2⟩, h3⟩
          have : ((a &&& maskTwo) != (e ^^^ (b &&& maskTwo))) = false := by rw [eq_false_iff_bne, hiff]; exact h2
          rw [ih.1 h3, this, Bool.or_false]
        · intro h
          by_cases h2 : Vole delta a b (elem a 0)
          · exact ih.2.1 fun h3 => h ⟨⟨fun _ => hz, h2⟩, h3⟩
          · exact ih.2.2 ((ef failed).2 (Or.inr h2))
        · intro h
          exact ih.2.2 ((ef failed).2 (Or.inl h))
      · have hne : a.setWidth 8 &&& 3 ≠ 0 := fun q => hz (zc.1 q)
        have hd1 : (decide (j ≠ leaf) && (a.setWidth 8 &&& 3) != 0) = true := by simp only [Bool.and_eq_true, decide_eq_true_eq, bne_iff_ne, ne_eq]; exact ⟨hj, hne⟩
        have hrec : checkLeaves w delta ((a, b) :: t) j iter leaf failed = .error .throw := by
          simp only [checkLeaves, he, ok_bind, hd1, throwIf_true, err_bind]
        rw [hrec]
        exact ⟨fun h => absurd (h.1.1 hni) hz, fun _ => Or.inl rfl, fun _ => Or.inl rfl⟩

/-- Neighbours in the sorted list tell whether the points are distinct. -/
theorem sorted_strict (l : List Nat) : l.Nodup ↔ ∀ i, 0 < i → i < l.length → l.mergeSort.getD (i - 1) 0 < l.mergeSort.getD i 0 := by
  have hp := List.mergeSort_perm l (fun a b => decide (a ≤ b))
  have hl : l.mergeSort.length = l.length := List.length_mergeSort l
  have hle : l.mergeSort.Pairwise fun a b => decide (a ≤ b) = true :=
    List.pairwise_mergeSort (fun a b c h1 h2 => by simp only [decide_eq_true_eq] at *; omega) (fun a b => by simp; omega) l
  rw [List.pairwise_iff_getElem] at hle
  have gd : ∀ {i : Nat} (h : i < l.mergeSort.length), l.mergeSort.getD i 0 = l.mergeSort[i] := fun h => getD_nat h
  rw [← hp.nodup_iff]
  constructor
  · intro hn i h0 hi
    have i1 : i < l.mergeSort.length := by rw [hl]; exact hi
    have i2 : i - 1 < l.mergeSort.length := by omega
    rw [gd i1, gd i2]
    have h1 := hle (i - 1) i i2 i1 (by omega)
    rw [decide_eq_true_eq] at h1
    have h2 : l.mergeSort[i - 1] ≠ l.mergeSort[i] := by
      intro e
      have := (hn.getElem_inj_iff (hi := i2) (hj := i1)).1 e
      omega
    omega
  · intro h
    have lt : ∀ d i, i + d + 1 < l.length → l.mergeSort.getD i 0 < l.mergeSort.getD (i + d + 1) 0 := by
      intro d
      induction d with
      | zero => intro i hi; exact h (i + 1) (by omega) hi
      | succ d ih =>
        intro i hi
        have := ih i (by omega)
        have := h (i + (d + 1) + 1) (by omega) hi
        rw [show i + (d + 1) + 1 - 1 = i + d + 1 by omega] at this
        omega
    rw [List.nodup_iff_pairwise_ne, List.pairwise_iff_getElem]
    intro i j hi hj hij e
    have := lt (j - i - 1) i (by omega)
    rw [show i + (j - i - 1) + 1 = j by omega] at this
    have hi' : i < l.mergeSort.length := hi
    have hj' : j < l.mergeSort.length := hj
    rw [gd hi', gd hj'] at this
    have e' : l.mergeSort[i] = l.mergeSort[j] := e
    omega

/-- What the debug check of the sparse vectors is for: valid base correlations at distinct points, the noise of the receiver, and valid
correlations at every position. -/
structure GoodSparse (delta : Block) (r : Receiver) (A B baseB : List Block) : Prop where
  base : ∀ i, i < r.par.parts → Vole delta (r.baseA.getD i 0) (baseB.getD i 0) (selem (r.baseC.getD i 0))
  distinct : r.points.Nodup
  noise : IsNoise r A
  vole : ∀ p, p < A.length → Vole delta (A.getD p 0) (B.getD p 0) (elem (A.getD p 0) 0)

/-- **C74** (before the encoding). For vectors of the right lengths and at least one point, `checkRT` ends normally exactly when the base
correlations, the noise and every position are right, and throws otherwise. -/
theorem C74_sparse (w : Bool) (delta : Block) {r : Receiver} {A B baseB : List Block} (h0 : 0 < r.par.parts) (hp : r.points.length = r.par.parts)
    (hpi : ∀ p ∈ r.points, p < r.par.noise) (hC : r.baseC.length = r.par.parts) (h4 : ∀ c ∈ r.baseC, c.toNat < 4)
    (hA : r.baseA.length = r.par.parts) (hB : baseB.length = r.par.parts) (lA : A.length = r.par.noise) (lB : B.length = r.par.noise) :
    (GoodSparse delta r A B baseB → checkRT w delta r A B baseB = .ok ()) ∧
    (¬ GoodSparse delta r A B baseB → checkRT w delta r A B baseB = .error .throw) := by
  have ls : r.points.mergeSort.length = r.par.parts := by rw [List.length_mergeSort, hp]
  have each : ∀ i ∈ List.range r.baseA.length, Decides (checkBase w delta r A baseB r.points.mergeSort i)
      (Vole delta (r.baseA.getD i 0) (baseB.getD i 0) (selem (r.baseC.getD i 0)) ∧
        elem (A.getD (r.points.getD i 0) 0) 0 = selem (r.baseC.getD i 0) ∧
        (0 < i → r.points.mergeSort.getD (i - 1) 0 < r.points.mergeSort.getD i 0)) := by
    intro i hi
    have hi : i < r.par.parts := by rw [← hA]; exact List.mem_range.1 hi
    have i1 : i < r.baseC.length := by omega
    have i2 : i < r.baseA.length := by omega
    have i3 : i < baseB.length := by omega
    have i4 : i < r.points.length := by omega
    have i5 : i < r.points.mergeSort.length := by omega
    have i6 : i - 1 < r.points.mergeSort.length := by omega
    have i7 : r.points[i] < A.length := by rw [lA]; exact hpi _ (List.getElem_mem i4)
    have ec : r.baseC.getD i 0 = r.baseC[i] := by simp [List.getD_eq_getElem?_getD, i1]
    have ep : r.points.getD i 0 = r.points[i] := by simp [List.getD_eq_getElem?_getD, i4]
    have es : r.points.mergeSort.getD i 0 = r.points.mergeSort[i] := getD_nat i5
    have es' : r.points.mergeSort.getD (i - 1) 0 = r.points.mergeSort[i - 1] := getD_nat i6
    have hc := h4 _ (List.getElem_mem i1)
    obtain ⟨e, he, hiff⟩ := masked_iff w delta r.baseA[i] baseB[i] hc
    simp only [checkBase, rd_ok i1, rd_ok i2, rd_ok i3, rd_ok i4, ok_bind, he, hi, if_true, rd_ok i7]
    rw [ec, ep, es, es', getD_rd i2, getD_rd i3, getD_rd i7]
    refine decides_bind (decides_throwIf ?_) (decides_bind (decides_throwIf ?_) ?_)
    · rw [eq_false_iff_bne, ← hiff]
      constructor
      · intro q; rw [← q, BitVec.xor_comm, ← BitVec.xor_assoc, BitVec.xor_self, BitVec.zero_xor]
      · intro q; rw [q, BitVec.xor_comm, BitVec.xor_assoc, BitVec.xor_self, BitVec.xor_zero]
    · rw [eq_false_iff_bne]
      constructor
      · intro q; rw [q, selem_low]
      · intro q; exact selem_inj hc (low_lt _) (by rw [selem_low, q])
    · by_cases hz : i = 0
      · simp only [hz, if_true]
        exact ⟨fun _ => rfl, fun h => absurd (fun q => absurd q (by omega)) h⟩
      · simp only [hz, if_false, rd_ok i5, rd_ok i6, ok_bind]
        refine decides_throwIf ?_
        rw [decide_eq_false_iff_not, Nat.not_le]
        exact ⟨fun q _ => q, fun q => q (by omega)⟩
  have hm := decides_mapRes each
  have c0 : ¬ (baseB.length ≠ r.baseA.length ∨ B.length ≠ A.length) := by omega
  have s0 : 0 < r.points.mergeSort.length := by omega
  simp only [checkRT, c0, if_false, rd_ok s0]
  by_cases hb : ∀ i ∈ List.range r.baseA.length, (Vole delta (r.baseA.getD i 0) (baseB.getD i 0) (selem (r.baseC.getD i 0)) ∧
        elem (A.getD (r.points.getD i 0) 0) 0 = selem (r.baseC.getD i 0) ∧
        (0 < i → r.points.mergeSort.getD (i - 1) 0 < r.points.mergeSort.getD i 0))
  · obtain ⟨u, eu⟩ := hm.1 hb
    have hb' : ∀ i, i < r.par.parts → _ := fun i hi => hb i (List.mem_range.2 (by rw [hA]; exact hi))
    have hnd : r.points.Nodup := (sorted_strict r.points).2 fun i h0 hi => (hb' i (by omega)).2.2 h0
    have hst : r.points.mergeSort.Pairwise (· < ·) := by
      have hle : r.points.mergeSort.Pairwise fun a b => decide (a ≤ b) = true :=
        List.pairwise_mergeSort (fun a b c h1 h2 => by simp only [decide_eq_true_eq] at *; omega) (fun a b => by simp; omega) r.points
      have hne : r.points.mergeSort.Nodup := ((List.mergeSort_perm r.points (fun a b => decide (a ≤ b))).nodup_iff).2 hnd
      rw [List.nodup_iff_pairwise_ne] at hne
      refine (hle.and hne).imp ?_
      rintro a b ⟨h1, h2⟩
      rw [decide_eq_true_eq] at h1
      omega
    have hhd : r.points.mergeSort[0] = r.points.mergeSort.headD r.points.mergeSort[0] := by
      generalize hg : r.points.mergeSort = L at s0
      cases L with
      | nil => simp at s0
      | cons x t => rfl
    have hcl := checkLeaves_ok w delta (A.zip B) 0 r.points.mergeSort r.points.mergeSort[0] false hst (by omega) hhd
      (fun q => by rw [q] at s0; simp at s0)
    have hgl : GoodSparse delta r A B baseB ↔ GoodLeaves delta (A.zip B) 0 r.points.mergeSort := by
      constructor
      · intro g q ab hq
        have hql : q < (A.zip B).length := (List.getElem?_eq_some_iff.1 hq).1
        have h1 : q < A.length := by simp at hql; omega
        have h2 : q < B.length := by simp at hql; omega
        have hab : ab = (A.getD q 0, B.getD q 0) := by
          rw [getD_rd h1, getD_rd h2]
          rw [List.getElem?_eq_getElem hql] at hq
          simpa using hq.symm
        subst hab
        exact ⟨fun hn => g.noise.2.2 q (by simpa using hn), g.vole q h1⟩
      · intro g
        have key : ∀ p, p < A.length → (p ∉ r.points → elem (A.getD p 0) 0 = (false, false)) ∧ Vole delta (A.getD p 0) (B.getD p 0) (elem (A.getD p 0) 0) := by
          intro p hp
          have h2 : p < B.length := by omega
          have hq : (A.zip B)[p]? = some (A.getD p 0, B.getD p 0) := by
            rw [getD_rd hp, getD_rd h2, List.getElem?_eq_getElem (by simp; omega)]
            simp
          have := g p _ hq
          simpa using this
        exact {
          base := fun i hi => (hb' i hi).1
          distinct := hnd
          noise := ⟨lA, fun i hi => (hb' i hi).2.1, fun p hn => by
            by_cases hpl : p < A.length
            · exact (key p hpl).1 hn
            · rw [List.getD_eq_getElem?_getD, List.getElem?_eq_none (by omega)]; exact elem_zero 0⟩
          vole := fun p hp => (key p hp).2 }
    rw [eu, hgl]
    simp only [ok_bind]
    refine ⟨fun g => by rw [hcl.1 g]; rfl, fun g => ?_⟩
    rcases hcl.2.1 g with e | e <;> rw [e] <;> rfl
  · rw [hm.2 hb]
    refine ⟨fun g => absurd (fun i hi => ?_) hb, fun _ => rfl⟩
    have hi : i < r.par.parts := by rw [← hA]; exact List.mem_range.1 hi
    exact ⟨g.base i hi, g.noise.2.1 i hi, fun q => (sorted_strict r.points).1 g.distinct i q (by omega)⟩

/-- **C74** (honest runs). The checks never stop honest parties: what they expand passes all three. -/
theorem C74_accepts (w : Bool) {delta : Block} {s : Sender} {r : Receiver} (h : Based delta s r) (h0 : 0 < r.par.parts) {n : Nat} (hn : n ≤ r.req)
    (W : Nat → Block) {temp : Nat} {ops : List EncOp} (hi : ∀ op ∈ ops, op.inside (r.par.noise + temp)) :
    ∃ A0 B0 A B, sparse s r W = .ok (A0, B0) ∧ checkRT w delta r A0 B0 s.baseB = .ok () ∧ silentInplace w s r n W temp ops = .ok (A, B) ∧
      checkFinal w delta A B = .ok () ∧ checkBatchBase w delta r s.baseB = .ok () := by
  obtain ⟨A0, B0, e1, l1, l2, hv, hnoise⟩ := sparse_ok h W
  obtain ⟨A, B, e2, -, -, hraw, -⟩ := C73_silent w h hn W hi
  have hcount : r.baseVoleCount = r.par.parts := by simp [Receiver.baseVoleCount, h.honestR]
  refine ⟨A0, B0, A, B, e1, ?_, e2, (C74_final w delta A B).1 hraw, ?_⟩
  · exact (C74_sparse w delta h0 h.points h.inside h.vals h.scalars h.lenA h.lenB l1 l2).1
      ⟨h.vole, h.distinct, hnoise, fun p hp => hv p (by rw [← l1]; exact hp)⟩
  · exact (C74_batch w delta (by rw [h.vals, hcount]) (by rw [h.lenA, hcount]) h.scalars s.baseB).1
      ⟨by rw [h.lenB, hcount], fun i hi => h.vole i (by rw [← hcount]; exact hi)⟩

/-- Both outcomes occur: a single wrong bit is found. -/
example : checkFinal false 4 [5, 0] [0, 0] = .ok () ∧ checkFinal false 4 [5, 8] [0, 0] = .error .throw := by decide

example : checkRT false 4 ⟨true, 2, ⟨1, 2, 0⟩, false, true, [4], [1], [1], .tungsten⟩ [12, 5] [12, 0] [0] = .ok () ∧
    checkRT false 4 ⟨true, 2, ⟨1, 2, 0⟩, false, true, [4], [1], [1], .tungsten⟩ [8, 5] [12, 0] [0] = .error .throw := by decide +kernel

end F4Vole
end SecJoin
