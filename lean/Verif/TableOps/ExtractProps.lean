import Verif.TableOps.Extract
import Verif.PermCor.Props
import Verif.Table.Lemmas
/-!
# C35: removing inactive rows
-/
namespace SecJoin
namespace Extract

/-! ## Specification -/

/-- Row `i` of the revealed table: the entries of its columns. -/
def revRow (t0 t1 : Table) (i : Nat) : List Row :=
  List.zipWith (fun a b => xorRow (a.data.rows.getD i []) (b.data.rows.getD i [])) t0.cols t1.cols

/-- The revealed flag of row `i`. -/
def active (t0 t1 : Table) (i : Nat) : Bool := (t0.isActive.getD i 0 ^^^ t1.isActive.getD i 0).getLsbD 0

/-! ## Lemmas -/

/-- The pieces of a row. -/
def pcs : List Nat → Row → List Row
  | [], _ => []
  | s :: ss, r => r.take s :: pcs ss (r.drop s)

theorem cut_ok {ss : List Nat} {r : Row} (h : ss.sum ≤ r.length) : cut ss r = .ok (pcs ss r) := by
  induction ss generalizing r with
  | nil => rfl
  | cons s ss ih =>
    simp only [List.sum_cons] at h
    rw [cut, if_pos (by omega), ih (by rw [List.length_drop]; omega)]
    rfl

theorem xorRow_take (n : Nat) (a b : Row) : (xorRow a b).take n = xorRow (a.take n) (b.take n) := by
  simp [xorRow, List.take_zipWith]

theorem xorRow_drop (n : Nat) (a b : Row) : (xorRow a b).drop n = xorRow (a.drop n) (b.drop n) := by
  simp [xorRow, List.drop_zipWith]

theorem pcs_xor (ss : List Nat) (a b : Row) : pcs ss (xorRow a b) = List.zipWith xorRow (pcs ss a) (pcs ss b) := by
  induction ss generalizing a b with
  | nil => rfl
  | cons s ss ih => simp [pcs, xorRow_take, xorRow_drop, ih]

theorem pcs_flatten (ls : List Row) : pcs (ls.map List.length) ls.flatten = ls := by
  induction ls with
  | nil => rfl
  | cons l ls ih => simp [pcs, ih]

theorem pcs_length (ss : List Nat) (r : Row) : (pcs ss r).length = ss.length := by
  induction ss generalizing r with
  | nil => rfl
  | cons s ss ih => simp [pcs, ih]

theorem pcs_sizes {ss : List Nat} {r : Row} (h : ss.sum ≤ r.length) : (pcs ss r).map List.length = ss := by
  induction ss generalizing r with
  | nil => rfl
  | cons s ss ih =>
    simp only [List.sum_cons] at h
    simp only [pcs, List.map_cons, ih (r := r.drop s) (by rw [List.length_drop]; omega), List.length_take]
    congr 1
    omega

theorem xorRow_flatten {a b : List Row} (h : a.map List.length = b.map List.length) :
    xorRow a.flatten b.flatten = (List.zipWith xorRow a b).flatten := by
  induction a generalizing b with
  | nil => cases b <;> simp [xorRow] at h ⊢
  | cons x a ih =>
    cases b with
    | nil => simp at h
    | cons y b =>
      simp only [List.map_cons, List.cons.injEq] at h
      simp only [List.flatten_cons, List.zipWith_cons_cons, ← ih h.2]
      exact List.zipWith_append h.1

/-- What a matrix of a well-formed column is. -/
structure MatOk (n : Nat) (m : BinMatrix) : Prop where
  cols : m.cols = divCeil m.bits 8
  shape : Shape n m.cols m.rows

/-- The pieces of row `i`. -/
def at_ (ms : List BinMatrix) (i : Nat) : List Row := ms.map fun m => m.rows.getD i []

theorem at_length {n i : Nat} {ms : List BinMatrix} (h : ∀ m ∈ ms, MatOk n m) (hi : i < n) :
    (at_ ms i).map List.length = ms.map fun m => divCeil m.bits 8 := by
  simp only [at_, List.map_map]
  apply List.map_congr_left
  intro m hm
  have := h m hm
  have hl : i < m.rows.length := by rw [this.shape.1]; exact hi
  simp only [Function.comp, List.getD_eq_getElem?_getD, List.getElem?_eq_getElem hl, Option.getD_some]
  rw [this.shape.2 _ (List.getElem_mem hl), this.cols]

theorem prepare_ok {n : Nat} {f : List Byte} {ms : List BinMatrix} (hf : f.length = n) (h : ∀ m ∈ ms, MatOk n m) :
    prepare n f ms ms.length = .ok ⟨1 + (ms.map fun m => divCeil m.bits 8).sum,
      (List.range n).map fun i => f.getD i 0 :: (at_ ms i).flatten⟩ := by
  have h1 : (ms.all fun m => m.rows.length == n) = true := by
    rw [List.all_eq_true]
    intro m hm
    simp [(h m hm).shape.1]
  have h2 : (((1, f.map fun b => [b]) :: ms.map fun m => (m.cols, m.rows)).all fun x : Nat × List Row =>
      x.2.length == (f.map fun b => [b]).length) = true := by
    rw [List.all_eq_true]
    intro x hx
    rw [List.mem_cons] at hx
    rcases hx with rfl | hx
    · simp
    · obtain ⟨m, hm, rfl⟩ := List.mem_map.1 hx
      simp [(h m hm).shape.1, hf]
  have h3 : ms.map (fun m => m.cols) = ms.map fun m => divCeil m.bits 8 :=
    List.map_congr_left fun m hm => (h m hm).cols
  unfold prepare combine
  simp only [hf, h1, bne_self_eq_false, throwIf_false, Bool.not_true, ok_bind]
  rw [if_pos h2]
  congr 2
  · simp only [List.map_cons, List.map_map, List.sum_cons]
    rw [← h3]; rfl
  · simp only [List.length_map, hf]
    apply List.map_congr_left
    intro i hi
    have hi' : i < f.length := by rw [hf]; exact List.mem_range.1 hi
    simp only [List.map_cons, List.map_map, List.flatten_cons, at_]
    have : (f.map fun b => [b]).getD i [] = [f.getD i 0] := by simp [hi']
    rw [this]
    rfl

theorem zip_lengths {a b : List Row} (h : b.map List.length = a.map List.length) :
    (List.zipWith xorRow a b).map List.length = a.map List.length := by
  induction a generalizing b with
  | nil => simp
  | cons x a ih =>
    cases b with
    | nil => simp at h
    | cons y b =>
      simp only [List.map_cons, List.cons.injEq] at h
      simp only [List.zipWith_cons_cons, List.map_cons, ih h.2, xorRow_length h.1.symm]

theorem getD_length {n c i : Nat} {x : List Row} (h : Shape n c x) (hi : i < n) : (x.getD i []).length = c := by
  have hl : i < x.length := by rw [h.1]; exact hi
  rw [List.getD_eq_getElem?_getD, List.getElem?_eq_getElem hl]
  exact h.2 _ (List.getElem_mem hl)

/-- The main lemma, on matrices. -/
theorem applyMat_ok {n W0 o0 W1 o1 : Nat} {p0 p1 : ComposedPerm} (hv : ValidComposed n W0 o0 W1 o1 p0 p1) (hn : 0 < n)
    {f0 f1 : List Byte} (hf0 : f0.length = n) (hf1 : f1.length = n) {in0 in1 : List BinMatrix} (h0 : ∀ m ∈ in0, MatOk n m)
    (h1 : ∀ m ∈ in1, MatOk n m) (hb : in0.map (·.bits) = in1.map (·.bits))
    (b0 : o0 + 1 + (in0.map fun m => divCeil m.bits 8).sum ≤ W0) (b1 : o1 + 1 + (in0.map fun m => divCeil m.bits 8).sum ≤ W1)
    (kept : List Nat) (hk : kept = (sharedPerm p0 p1).filter fun i => (f0.getD i 0 ^^^ f1.getD i 0).getLsbD 0) :
    ∃ u0 u1, applyMat n p0 p1 f0 f1 in0 in1 in0.length = .ok (u0, u1) ∧
      u0.map (·.bits) = in0.map (·.bits) ∧ u1.map (·.bits) = in0.map (·.bits) ∧
      (∀ m ∈ u0, MatOk kept.length m) ∧ (∀ m ∈ u1, MatOk kept.length m) ∧
      ∀ d (hd : d < kept.length), List.zipWith xorRow (at_ u0 d) (at_ u1 d) = List.zipWith xorRow (at_ in0 kept[d]) (at_ in1 kept[d]) := by
  have hlen : in1.length = in0.length := by simpa using (congrArg List.length hb).symm
  obtain ⟨ss, hss⟩ : ∃ ss, ss = in0.map fun m => divCeil m.bits 8 := ⟨_, rfl⟩
  have hss1 : (in1.map fun m => divCeil m.bits 8) = ss := by
    have := congrArg (List.map fun b => divCeil b 8) hb
    rw [List.map_map, List.map_map] at this
    rw [hss]
    exact this.symm
  have e0 := prepare_ok hf0 h0
  have e1 := prepare_ok hf1 h1
  rw [hss1, hlen] at e1
  rw [← hss] at e0 b0 b1
  obtain ⟨X, hX⟩ : ∃ X : List Byte → List BinMatrix → List Row, X = fun f ms => (List.range n).map fun i => f.getD i 0 :: (at_ ms i).flatten :=
    ⟨_, rfl⟩
  have hXg : ∀ f ms k, k < n → (X f ms).getD k [] = f.getD k 0 :: (at_ ms k).flatten := by
    intro f ms k hk; rw [hX]; simp [hk]
  have shape : ∀ f ms, (∀ m ∈ ms, MatOk n m) → (ms.map fun m => divCeil m.bits 8) = ss → Shape n (1 + ss.sum) (X f ms) := by
    intro f ms hms hs
    refine ⟨by rw [hX]; simp, ?_⟩
    intro r hr
    rw [hX] at hr
    obtain ⟨i, hi, rfl⟩ := List.mem_map.1 hr
    rw [List.length_cons, List.length_flatten, at_length hms (List.mem_range.1 hi), hs]
    omega
  have s0 := shape f0 in0 h0 hss.symm
  have s1 := shape f1 in1 h1 hss1
  have hi := validComposed_iff.mp hv
  obtain ⟨c0', c1', y0, y1, e, -, -, -, t0, t1, hx⟩ := composed_applyBoth_ok hi hn (op := .regular)
    (x0 := ⟨1 + ss.sum, X f0 in0⟩) (x1 := ⟨1 + ss.sum, X f1 in1⟩) s0 s1 rfl (by simp only; omega) (by simp only; omega)
  rw [← sharedPerm_eq hi] at hx
  obtain ⟨hπ, hπl, -⟩ := C07_shared_bijection hv
  have hπ' := (isBijection_iff _).mp hπ
  obtain ⟨π, hπe⟩ : ∃ π, π = sharedPerm p0 p1 := ⟨_, rfl⟩
  rw [← hπe] at hx hπl hπ' hk
  simp only at t0 t1 hx
  -- row by row
  have hrow : ∀ i < n, xorRow (y0.getD i []) (y1.getD i []) = xorRow ((X f0 in0).getD (π.getD i 0) []) ((X f1 in1).getD (π.getD i 0) []) := by
    intro i hi
    have hpi : π.getD i 0 < n := by
      rw [List.getD_eq_getElem?_getD, List.getElem?_eq_getElem (by omega), Option.getD_some]
      exact lt_of_lt_of_eq (hπ'.1 _ (List.getElem_mem _)) hπl
    have hl := (xm_shape s0 s1).1
    have := congrArg (fun l => l[i]?) hx
    simp only [permRows] at this
    rw [gather_getElem? (by rw [hl, ← hπl]; exact hπ'.1), List.getElem?_eq_getElem (l := π) (by omega)] at this
    have hg : π.getD i 0 = π[i]'(by omega) := by
      rw [List.getD_eq_getElem?_getD, List.getElem?_eq_getElem (by omega)]; rfl
    have a0 : i < y0.length := by rw [t0.1]; exact hi
    have a1 : i < y1.length := by rw [t1.1]; exact hi
    have c0 : π.getD i 0 < (X f0 in0).length := by rw [s0.1]; exact hpi
    have c1 : π.getD i 0 < (X f1 in1).length := by rw [s1.1]; exact hpi
    rw [hg] at c0 c1
    simp only [xm, List.getElem?_zipWith, List.getElem?_eq_getElem a0, List.getElem?_eq_getElem a1, Option.bind_some,
      List.getElem?_eq_getElem c0, List.getElem?_eq_getElem c1, Option.some.injEq] at this
    rw [hg]
    simp only [List.getD_eq_getElem?_getD, List.getElem?_eq_getElem a0, List.getElem?_eq_getElem a1,
      List.getElem?_eq_getElem c0, List.getElem?_eq_getElem c1, Option.getD_some]
    exact this
  have hπn : ∀ i < n, π.getD i 0 < n := by
    intro i hi
    rw [List.getD_eq_getElem?_getD, List.getElem?_eq_getElem (by omega), Option.getD_some]
    exact lt_of_lt_of_eq (hπ'.1 _ (List.getElem_mem _)) hπl
  have hy0 : ∀ i < n, (y0.getD i []).length = 1 + ss.sum := fun i hi => getD_length t0 hi
  have hy1 : ∀ i < n, (y1.getD i []).length = 1 + ss.sum := fun i hi => getD_length t1 hi
  have hcons : ∀ i < n, xorRow (y0.getD i []) (y1.getD i []) = (f0.getD (π.getD i 0) 0 ^^^ f1.getD (π.getD i 0) 0) ::
      (List.zipWith xorRow (at_ in0 (π.getD i 0)) (at_ in1 (π.getD i 0))).flatten := by
    intro i hi
    rw [hrow i hi, hXg _ _ _ (hπn i hi), hXg _ _ _ (hπn i hi), ← xorRow_flatten]
    · rfl
    · rw [at_length h0 (hπn i hi), at_length h1 (hπn i hi), hss1, hss]
  have hflag : ∀ i < n, (((y0.getD i []).getD 0 0).getLsbD 0 ^^ ((y1.getD i []).getD 0 0).getLsbD 0)
      = (f0.getD (π.getD i 0) 0 ^^^ f1.getD (π.getD i 0) 0).getLsbD 0 := by
    intro i hi
    have := congrArg (fun r => r.getD 0 0) (hcons i hi)
    simp only [List.getD_cons_zero] at this
    rw [← this, ← BitVec.getLsbD_xor]
    congr 1
    have a0 : 0 < (y0.getD i []).length := by rw [hy0 i hi]; omega
    have a1 : 0 < (y1.getD i []).length := by rw [hy1 i hi]; omega
    simp only [xorRow, List.getD_eq_getElem?_getD (l := y0.getD i []), List.getD_eq_getElem?_getD (l := y1.getD i []),
      List.getD_eq_getElem?_getD (l := List.zipWith _ _ _), List.getElem?_zipWith, List.getElem?_eq_getElem a0,
      List.getElem?_eq_getElem a1, Option.getD_some]
  obtain ⟨act, hact⟩ : ∃ act : Nat → Bool, act = fun i => (f0.getD i 0 ^^^ f1.getD i 0).getLsbD 0 := ⟨_, rfl⟩
  obtain ⟨K, hK⟩ : ∃ K, K = (List.range n).filter fun i => act (π.getD i 0) := ⟨_, rfl⟩
  have hKn : ∀ i ∈ K, i < n := by
    intro i hi; rw [hK, List.mem_filter] at hi; exact List.mem_range.1 hi.1
  have hkK : kept = K.map fun i => π.getD i 0 := by
    rw [hk, hK, ← hact]
    have : π = (List.range n).map fun i => π.getD i 0 := by
      apply List.ext_getElem (by simp [hπl])
      intro i a b
      simp [a]
    conv_lhs => rw [this]
    rw [List.filter_map]
    rfl
  have hfl : ((List.range n).map fun i => ((y0.getD i []).getD 0 0).getLsbD 0 ^^ ((y1.getD i []).getD 0 0).getLsbD 0)
      = (List.range n).map fun i => act (π.getD i 0) := by
    apply List.map_congr_left
    intro i hi
    rw [hflag i (List.mem_range.1 hi), hact]
  have hcol : ∀ (ms : List BinMatrix) (y : List Row), (ms.map fun m => divCeil m.bits 8) = ss → (∀ i < n, (y.getD i []).length = 1 + ss.sum) →
      collect ((List.range n).map fun i => act (π.getD i 0)) ms y = .ok ((List.range ms.length).map fun j =>
        ⟨(ms.getD j ⟨0, 0, []⟩).bits, divCeil (ms.getD j ⟨0, 0, []⟩).bits 8, K.map fun i => (pcs ss ((y.getD i []).drop 1)).getD j []⟩) := by
    intro ms y hs hy
    unfold collect
    have hK' : (List.range ((List.range n).map fun i => act (π.getD i 0)).length).filter
        (fun i => ((List.range n).map fun i => act (π.getD i 0)).getD i false) = K := by
      rw [hK, List.length_map, List.length_range]
      apply List.filter_congr
      intro i hi
      simp [List.mem_range.1 hi]
    simp only [hK', hs]
    rw [mapRes_ok (g := fun i => pcs ss ((y.getD i []).drop 1))]
    · simp only [ok_bind, List.map_map]
      rfl
    · intro i hi
      exact cut_ok (by rw [List.length_drop, hy i (hKn i hi)]; omega)
  have hat : ∀ (ms : List BinMatrix) (y : List Row), ms.length = ss.length → ∀ d (hd : d < K.length),
      at_ ((List.range ms.length).map fun j =>
        ⟨(ms.getD j ⟨0, 0, []⟩).bits, divCeil (ms.getD j ⟨0, 0, []⟩).bits 8, K.map fun i => (pcs ss ((y.getD i []).drop 1)).getD j []⟩) d
        = pcs ss ((y.getD K[d] []).drop 1) := by
    intro ms y hl d hd
    simp only [at_, List.map_map]
    apply List.ext_getElem
    · simp [hl, pcs_length]
    · intro j a b
      obtain ⟨q, hq⟩ : ∃ q, q = pcs ss ((y.getD K[d] []).drop 1) := ⟨_, rfl⟩
      have e : (K.map fun i => (pcs ss ((y.getD i []).drop 1)).getD j []).getD d [] = q.getD j [] := by
        rw [List.getD_eq_getElem?_getD, List.getElem?_map, List.getElem?_eq_getElem hd, hq]
        rfl
      simp only [List.getElem_map, List.getElem_range, Function.comp]
      simp only [← hq] at b ⊢
      rw [e, List.getD_eq_getElem?_getD, List.getElem?_eq_getElem b]
      rfl
  have hok : ∀ (ms : List BinMatrix) (y : List Row), (ms.map fun m => divCeil m.bits 8) = ss → (∀ i < n, (y.getD i []).length = 1 + ss.sum) →
      ∀ m ∈ ((List.range ms.length).map fun j => (⟨(ms.getD j ⟨0, 0, []⟩).bits, divCeil (ms.getD j ⟨0, 0, []⟩).bits 8,
        K.map fun i => (pcs ss ((y.getD i []).drop 1)).getD j []⟩ : BinMatrix)), MatOk kept.length m := by
    intro ms y hs hy m hm
    obtain ⟨j, hj, rfl⟩ := List.mem_map.1 hm
    have hj' := List.mem_range.1 hj
    refine ⟨rfl, by simp [hkK], ?_⟩
    intro r hr
    obtain ⟨i, hi, rfl⟩ := List.mem_map.1 hr
    obtain ⟨q, hq⟩ : ∃ q, q = pcs ss ((y.getD i []).drop 1) := ⟨_, rfl⟩
    have hsz : q.map List.length = ms.map fun m => divCeil m.bits 8 := by
      rw [hs, hq]; exact pcs_sizes (by rw [List.length_drop, hy i (hKn i hi)]; omega)
    have this := congrArg (fun l => l.getD j 0) hsz
    have hpl : j < q.length := by
      have := congrArg List.length hsz
      rw [List.length_map, List.length_map] at this
      omega
    rw [← hq]
    simp only [List.getD_eq_getElem?_getD, List.getElem?_map, List.getElem?_eq_getElem hpl, List.getElem?_eq_getElem hj',
      Option.map_some, Option.getD_some] at this ⊢
    exact this
  have l0 : in0.length = ss.length := by rw [hss]; simp
  have hbits : ∀ (ms : List BinMatrix) (f : Nat → List Row), ms.map (·.bits) = in0.map (·.bits) →
      ((List.range ms.length).map fun j => (⟨(ms.getD j ⟨0, 0, []⟩).bits, divCeil (ms.getD j ⟨0, 0, []⟩).bits 8, f j⟩ : BinMatrix)).map (·.bits)
        = in0.map (·.bits) := by
    intro ms f h
    rw [← h, List.map_map]
    apply List.ext_getElem (by simp)
    intro i a b
    simp only [List.length_map] at b
    simp [b]
  refine ⟨_, _, ?_, hbits in0 (fun j => K.map fun i => (pcs ss ((y0.getD i []).drop 1)).getD j []) rfl,
    hbits in1 (fun j => K.map fun i => (pcs ss ((y1.getD i []).drop 1)).getD j []) hb.symm, hok in0 y0 hss.symm hy0, hok in1 y1 hss1 hy1, ?_⟩
  · unfold applyMat
    rw [hX] at e
    rw [e0, ok_bind, e1, ok_bind, e, ok_bind]
    simp only
    rw [hfl, hcol in0 y0 hss.symm hy0, hcol in1 y1 hss1 hy1]
    rfl
  · intro d hd
    have hd' : d < K.length := by rw [hkK] at hd; simpa using hd
    rw [hat in0 y0 l0 d hd', hat in1 y1 (by omega) d hd', ← pcs_xor, ← xorRow_drop, hcons _ (hKn _ (List.getElem_mem hd')), List.drop_succ_cons,
      List.drop_zero]
    have hkd : kept[d] = π.getD K[d] 0 := by simp [hkK]
    rw [hkd]
    obtain ⟨k, hk'⟩ : ∃ k, k = π.getD K[d] 0 := ⟨_, rfl⟩
    have hkn : k < n := by rw [hk']; exact hπn _ (hKn _ (List.getElem_mem hd'))
    rw [← hk']
    have hz : (List.zipWith xorRow (at_ in0 k) (at_ in1 k)).map List.length = ss := by
      have q0 := at_length h0 hkn
      have q1 := at_length h1 hkn
      rw [hss1] at q1
      rw [← hss] at q0
      rw [← q0] at q1
      rw [← q0]
      exact zip_lengths q1
    rw [← hz, pcs_flatten]

theorem outInfos_ok {n : Nat} {t : Table} (ht : t.WF n) (out : Table) :
    outInfos t out = .ok (if out.cols.length = t.cols.length then out.getColumnInfo else t.getColumnInfo) := by
  unfold outInfos
  by_cases hl : out.cols.length = t.cols.length
  · rw [if_neg (by simpa using hl), if_pos hl]
  · rw [if_pos hl, if_neg hl, Table.init, Table.initLoop_ok]
    · simp [ok_bind, Table.getColumnInfo, Function.comp_def]
    · have := ht.names
      simpa [Table.getColumnInfo, Function.comp_def] using this
    · simp
    · intro i hi
      obtain ⟨c, hc, rfl⟩ := List.mem_map.1 hi
      exact (ht.col c hc).str

theorem matOk_col {n : Nat} {t : Table} (ht : t.WF n) : ∀ m ∈ t.cols.map (·.data), MatOk n m := by
  intro m hm
  obtain ⟨c, hc, rfl⟩ := List.mem_map.1 hm
  have := ht.col c hc
  exact ⟨by rw [this.cols, this.bits], by rw [this.cols]; exact this.shape⟩

theorem data_bits {n : Nat} {t : Table} (ht : t.WF n) : (t.cols.map (·.data)).map (·.bits) = t.getColumnInfo.map (·.bits) := by
  simp only [Table.getColumnInfo, List.map_map]
  apply List.map_congr_left
  intro c hc
  exact (ht.col c hc).bits

theorem data_bytes {n : Nat} {t : Table} (ht : t.WF n) :
    ((t.cols.map (·.data)).map fun m => divCeil m.bits 8).sum = infoBytes t.getColumnInfo := by
  have := congrArg (List.map fun b => divCeil b 8) (data_bits ht)
  unfold infoBytes
  apply congrArg List.sum
  simpa [List.map_map, Function.comp_def] using this

theorem zipInfos {infos : List ColumnInfo} {u : List BinMatrix} (hl : u.length = infos.length) :
    (List.zipWith Column.mk infos u).map (·.info) = infos ∧ (List.zipWith Column.mk infos u).map (·.data) = u := by
  constructor
  · apply List.ext_getElem (by simp [hl])
    intro i a b
    simp
  · apply List.ext_getElem (by simp [hl])
    intro i a b
    simp

theorem zipInfos_wf {n w : Nat} {t : Table} (ht : t.WF n) (hne : t.cols ≠ []) {u : List BinMatrix} (hb : u.map (·.bits) = t.getColumnInfo.map (·.bits))
    (hu : ∀ m ∈ u, MatOk w m) : (⟨[], List.zipWith Column.mk t.getColumnInfo u⟩ : Table).WF w := by
  have hl : u.length = t.getColumnInfo.length := by simpa using congrArg List.length hb
  have e1 := (zipInfos hl).1
  refine ⟨?_, ?_, ?_, Or.inl rfl⟩
  · intro c hc
    obtain ⟨i, hi, rfl⟩ := List.mem_iff_getElem.1 hc
    simp only [List.length_zipWith] at hi
    have hi1 : i < t.getColumnInfo.length := by omega
    have hi2 : i < u.length := by omega
    simp only [List.getElem_zipWith]
    have hm := hu u[i] (List.getElem_mem hi2)
    have hbi : (u[i]).bits = (t.getColumnInfo[i]).bits := by
      have := congrArg (fun l => l[i]?) hb
      simpa [hi1, hi2] using this
    refine ⟨hbi, by rw [hm.cols, hbi], by rw [← hbi, ← hm.cols]; exact hm.shape, ?_⟩
    have hmem : t.getColumnInfo[i] ∈ t.getColumnInfo := List.getElem_mem hi1
    obtain ⟨c, hc, e⟩ := List.mem_map.1 hmem
    rw [← e]
    exact (ht.col c hc).str
  · have := congrArg (List.map (·.name)) e1
    rw [List.map_map] at this
    have h2 := ht.names
    simp only [Function.comp_def] at this
    rw [this]
    simpa [Table.getColumnInfo, Function.comp_def] using h2
  · intro h
    rw [show List.zipWith Column.mk t.getColumnInfo u = [] from h] at e1
    have : t.cols = [] := by simpa [Table.getColumnInfo] using e1.symm
    exact absurd this hne

theorem zipWith_at (t0 t1 : Table) (i : Nat) :
    revRow t0 t1 i = List.zipWith xorRow (at_ (t0.cols.map (·.data)) i) (at_ (t1.cols.map (·.data)) i) := by
  simp [revRow, at_, List.zipWith_map]

theorem guard_cases (c : ComposedPerm) (x : Mat Row) (r k : Nat) : c.guard x r k = .ok () ∨ c.guard x r k = .error .throw := by
  simp only [ComposedPerm.guard]
  cases (r != c.size) <;> cases (r != x.rows.length || k != x.cols) <;> cases decide (c.idx > 1) <;>
    cases (c.snd.hasSetup x.cols == false) <;> simp [throwIf, ok_bind, err_bind]

theorem applyBoth_refused {n W0 o0 W1 o1 : Nat} {p0 p1 : ComposedPerm} (hv : ValidComposed n W0 o0 W1 o1 p0 p1) {x0 x1 : Mat Row}
    (hc : x1.cols = x0.cols) (h : n = 0 ∨ W0 < o0 + x0.cols ∨ W1 < o1 + x0.cols) :
    ComposedPerm.applyBoth p0 p1 .regular x0 x1 = .error .throw := by
  have g0 : W0 < o0 + x0.cols → p0.guard x0 x0.rows.length x0.cols = .error .throw := by
    intro h
    apply C07_refuse
    right; right; right; right
    rw [hv.cor0.width.1, hv.cor0.offset.1]
    have := hv.cor0.offset.2.2
    omega
  have g1 : W1 < o1 + x0.cols → p1.guard x1 x1.rows.length x1.cols = .error .throw := by
    intro h
    apply C07_refuse
    right; right; right; right
    rw [hv.cor1.width.1, hv.cor1.offset.1]
    have := hv.cor1.offset.2.2
    omega
  simp only [ComposedPerm.applyBoth]
  rcases guard_cases p0 x0 x0.rows.length x0.cols with e0 | e0
  case inr => rw [e0, err_bind]
  rcases guard_cases p1 x1 x1.rows.length x1.cols with e1 | e1
  case inr => rw [e0, ok_bind, e1, err_bind]
  rcases h with h | h | h
  · rw [e0, ok_bind, e1, ok_bind]
    have r0 : p0.receiverFirst .regular = false := by simp [ComposedPerm.receiverFirst, hv.idx.1]
    have r1 : p1.receiverFirst .regular = true := by simp [ComposedPerm.receiverFirst, hv.idx.2]
    rw [r0, r1]
    have hz : p1.rcv.size = 0 := by rw [PermCorReceiver.size, hv.cor0.shape.2.1.1, h]
    simp only [ComposedPerm.twoPhase, applyBoth, PermCorReceiver.apply, hz]
    cases (x1.rows.length != 0 || x1.rows.length != 0 || x1.cols != x1.cols) <;> simp [throwIf, ok_bind, err_bind]
  · rw [g0 h] at e0; cases e0
  · rw [g1 h] at e1; cases e1

/-! ## C35 -/

/-- The table `out` can take the columns of `t`: their number differs, so that it is set up anew, or they are the same. -/
def Fits (t out : Table) : Prop := out.cols.length ≠ t.cols.length ∨ out.getColumnInfo = t.getColumnInfo

/-- C35: with a correlation of enough bytes per row (one for the flag besides those of the columns) both parties finish,
whatever the output tables held. The output has no flags and one column for each of the input with its width; its revealed
rows are the active rows of the input, each once, in the order of the shared permutation. An output table that fits gets
the columns of the input; one with as many columns as the input keeps its own. -/
theorem C35_extract {n W0 o0 W1 o1 : Nat} {p0 p1 : ComposedPerm} (hv : ValidComposed n W0 o0 W1 o1 p0 p1) (hn : 0 < n)
    {t0 t1 : Table} (ht0 : t0.WF n) (ht1 : t1.WF n) (hi : t0.getColumnInfo = t1.getColumnInfo)
    (hf0 : t0.isActive.length = n) (hf1 : t1.isActive.length = n)
    (hb0 : o0 + 1 + infoBytes t0.getColumnInfo ≤ W0) (hb1 : o1 + 1 + infoBytes t0.getColumnInfo ≤ W1) (out0 out1 : Table) :
    ∃ u0 u1 w, applyTable n p0 p1 t0 t1 out0 out1 = .ok (u0, u1) ∧ u0.isActive = [] ∧ u1.isActive = [] ∧
      u0.cols.map (fun c => c.data.bits) = t0.getColumnInfo.map (·.bits) ∧
      u1.cols.map (fun c => c.data.bits) = t0.getColumnInfo.map (·.bits) ∧
      (∀ c ∈ u0.cols ++ u1.cols, c.data.cols = divCeil c.data.bits 8 ∧ Shape w c.data.cols c.data.rows) ∧
      (List.range w).map (revRow u0 u1) = ((sharedPerm p0 p1).filter (active t0 t1)).map (revRow t0 t1) ∧
      ((List.range w).map (revRow u0 u1)).Perm (((List.range n).filter (active t0 t1)).map (revRow t0 t1)) ∧
      (Fits t0 out0 → u0.WF w ∧ u0.getColumnInfo = t0.getColumnInfo) ∧
      (Fits t1 out1 → u1.WF w ∧ u1.getColumnInfo = t0.getColumnInfo) ∧
      (out0.cols.length = t0.cols.length → u0.getColumnInfo = out0.getColumnInfo) ∧
      (out1.cols.length = t1.cols.length → u1.getColumnInfo = out1.getColumnInfo) := by
  have hbit : (t0.cols.map (·.data)).map (·.bits) = (t1.cols.map (·.data)).map (·.bits) := by
    rw [data_bits ht0, data_bits ht1, hi]
  obtain ⟨u0, u1, e, b0, b1, k0, k1, h⟩ := applyMat_ok hv hn hf0 hf1 (matOk_col ht0) (matOk_col ht1) hbit
    (by rw [data_bytes ht0]; exact hb0) (by rw [data_bytes ht0]; exact hb1) _ rfl
  have hne0 : t0.cols ≠ [] := fun h => by have := ht0.empty h; omega
  have hne1 : t1.cols ≠ [] := fun h => by have := ht1.empty h; omega
  rw [data_bits ht0] at b0 b1
  obtain ⟨i0, hi0⟩ : ∃ i0, i0 = (if out0.cols.length = t0.cols.length then out0.getColumnInfo else t0.getColumnInfo) := ⟨_, rfl⟩
  obtain ⟨i1, hi1⟩ : ∃ i1, i1 = (if out1.cols.length = t1.cols.length then out1.getColumnInfo else t1.getColumnInfo) := ⟨_, rfl⟩
  have l0 : u0.length = i0.length := by
    have := congrArg List.length b0
    rw [hi0]
    split
    · rename_i h; simpa [Table.getColumnInfo, h] using this
    · simpa using this
  have l1 : u1.length = i1.length := by
    have := congrArg List.length b1
    rw [hi] at this
    rw [hi1]
    split
    · rename_i h; simpa [Table.getColumnInfo, h] using this
    · simpa using this
  obtain ⟨c0, d0⟩ := zipInfos l0
  obtain ⟨c1, d1⟩ := zipInfos l1
  have hrows : (List.range ((sharedPerm p0 p1).filter (active t0 t1)).length).map
      (revRow ⟨[], List.zipWith Column.mk i0 u0⟩ ⟨[], List.zipWith Column.mk i1 u1⟩)
      = ((sharedPerm p0 p1).filter (active t0 t1)).map (revRow t0 t1) := by
    apply List.ext_getElem (by simp)
    intro d a b
    simp only [List.length_map] at b
    simp only [List.getElem_map, List.getElem_range, zipWith_at, d0, d1]
    exact h d b
  have bits : ∀ (i : List ColumnInfo) (u : List BinMatrix), (List.zipWith Column.mk i u).map (·.data) = u →
      (List.zipWith Column.mk i u).map (fun c => c.data.bits) = u.map (·.bits) := by
    intro i u e
    conv_rhs => rw [← e]
    simp
  refine ⟨⟨[], List.zipWith Column.mk i0 u0⟩, ⟨[], List.zipWith Column.mk i1 u1⟩,
    ((sharedPerm p0 p1).filter (active t0 t1)).length, ?_, rfl, rfl, (bits _ _ d0).trans b0, (bits _ _ d1).trans b1, ?_, hrows, ?_, ?_, ?_, ?_, ?_⟩
  · unfold applyTable
    have hl : (t0.cols.map (·.data)).length = t0.cols.length := by simp
    rw [hl] at e
    rw [hf0, hf1, outInfos_ok ht0, outInfos_ok ht1, e, ← hi0, ← hi1]
    simp only [bne_self_eq_false, throwIf_false, ok_bind]
  · intro c hc
    rcases List.mem_append.1 hc with hc | hc
    · have hm : c.data ∈ u0 := by rw [← d0]; exact List.mem_map_of_mem hc
      exact ⟨(k0 _ hm).cols, (k0 _ hm).shape⟩
    · have hm : c.data ∈ u1 := by rw [← d1]; exact List.mem_map_of_mem hc
      exact ⟨(k1 _ hm).cols, (k1 _ hm).shape⟩
  · rw [hrows]
    apply List.Perm.map
    apply List.Perm.filter
    obtain ⟨hπ, hπl, -⟩ := C07_shared_bijection hv
    have := isPermList_iff_perm.mp ((isBijection_iff _).mp hπ)
    rwa [hπl] at this
  · intro hfit
    have : i0 = t0.getColumnInfo := by
      rw [hi0]
      split
      · rename_i h; exact hfit.resolve_left (fun g => g h)
      · rfl
    subst this
    exact ⟨zipInfos_wf ht0 hne0 b0 k0, c0⟩
  · intro hfit
    have : i1 = t1.getColumnInfo := by
      rw [hi1]
      split
      · rename_i h; exact hfit.resolve_left (fun g => g h)
      · rfl
    subst this
    exact ⟨zipInfos_wf ht1 hne1 (by rw [b1, hi]) k1, c1.trans hi.symm⟩
  · intro h
    rw [if_pos h] at hi0
    exact c0.trans hi0
  · intro h
    rw [if_pos h] at hi1
    exact c1.trans hi1

/-- C35: a run without flags for every row, of no rows, or with too few bytes of the correlation is refused, whatever the
tables hold. -/
theorem C35_refused {n W0 o0 W1 o1 : Nat} {p0 p1 : ComposedPerm} (hv : ValidComposed n W0 o0 W1 o1 p0 p1) {t0 t1 : Table}
    (ht0 : t0.WF n) (ht1 : t1.WF n) (hi : t0.getColumnInfo = t1.getColumnInfo) (out0 out1 : Table)
    (h : n = 0 ∨ t0.isActive.length ≠ n ∨ t1.isActive.length ≠ n ∨ W0 < o0 + 1 + infoBytes t0.getColumnInfo ∨
      W1 < o1 + 1 + infoBytes t0.getColumnInfo) : applyTable n p0 p1 t0 t1 out0 out1 = .error .throw := by
  by_cases hf0 : t0.isActive.length = n
  case neg => simp [applyTable, hf0, throwIf, err_bind]
  by_cases hf1 : t1.isActive.length = n
  case neg => simp [applyTable, hf0, hf1, throwIf, err_bind, ok_bind]
  have h' : n = 0 ∨ W0 < o0 + 1 + infoBytes t0.getColumnInfo ∨ W1 < o1 + 1 + infoBytes t0.getColumnInfo := by
    rcases h with h | h | h | h | h
    · exact .inl h
    · exact absurd hf0 h
    · exact absurd hf1 h
    · exact .inr (.inl h)
    · exact .inr (.inr h)
  have hl0 : (t0.cols.map (·.data)).length = t0.cols.length := by simp
  have hl1 : (t1.cols.map (·.data)).length = t0.cols.length := by
    have := congrArg List.length hi
    simp only [Table.getColumnInfo, List.length_map] at this
    simp [this]
  have q0 := prepare_ok hf0 (matOk_col ht0)
  have q1 := prepare_ok hf1 (matOk_col ht1)
  rw [hl0] at q0
  rw [hl1] at q1
  unfold applyTable applyMat
  rw [hf0, hf1, outInfos_ok ht0, outInfos_ok ht1, q0, q1]
  simp only [bne_self_eq_false, throwIf_false, ok_bind]
  rw [applyBoth_refused hv]
  · rfl
  · rw [data_bytes ht0, data_bytes ht1, hi]
  · rw [data_bytes ht0]
    rcases h' with h | h | h
    · exact .inl h
    · exact .inr (.inl (by show _ < _ + (1 + _); omega))
    · exact .inr (.inr (by show _ < _ + (1 + _); omega))

/-- C35 fails for some tables when the protocol is set up from the columns: the byte of the flag is not asked for, so that
the run is refused exactly if the bytes of the columns are a multiple of sixteen. -/
theorem C35_init_false {n : Nat} {p0 p1 : ComposedPerm} (hn : 0 < n) {t0 t1 : Table}
    (hv : ValidComposed n (budget (infoBytes t0.getColumnInfo)) 0 (budget (infoBytes t0.getColumnInfo)) 0 p0 p1)
    (ht0 : t0.WF n) (ht1 : t1.WF n) (hi : t0.getColumnInfo = t1.getColumnInfo)
    (hf0 : t0.isActive.length = n) (hf1 : t1.isActive.length = n) (out0 out1 : Table) :
    applyTable n p0 p1 t0 t1 out0 out1 = .error .throw ↔ infoBytes t0.getColumnInfo % 16 = 0 := by
  constructor
  · intro h
    by_contra hne
    have hb : 0 + 1 + infoBytes t0.getColumnInfo ≤ budget (infoBytes t0.getColumnInfo) := by
      unfold budget divCeil
      omega
    obtain ⟨u0, u1, w, e, -⟩ := C35_extract hv hn ht0 ht1 hi hf0 hf1 hb hb out0 out1
    rw [e] at h
    cases h
  · intro h
    apply C35_refused hv ht0 ht1 hi
    right; right; right; left
    unfold budget divCeil
    omega

/-- A table of three rows with one column of a byte and flags. -/
def exT : Table := ⟨[1, 0, 1], [⟨⟨[97], .int, 8⟩, ⟨8, 1, [[5], [6], [7]]⟩⟩]⟩

/-- An empty table with one column of another name and width. -/
def exOut : Table := ⟨[], [⟨⟨[98], .int, 32⟩, ⟨32, 4, []⟩⟩]⟩

/-- C35 fails for an output table that has as many columns as the input, but others: it keeps its column names and types,
and these need not agree with the width of the data. The input has one column `a` of one byte; the output had the column
`b` of 32 bits. -/
theorem C35_stale_false : ∃ p0 p1 t0 t1 out u0 u1, ValidComposed 3 16 0 16 0 p0 p1 ∧ t0.WF 3 ∧ t1.WF 3 ∧
    t0.getColumnInfo = t1.getColumnInfo ∧ t0.isActive.length = 3 ∧ t1.isActive.length = 3 ∧
    1 + infoBytes t0.getColumnInfo ≤ 16 ∧ out.WF 0 ∧ applyTable 3 p0 p1 t0 t1 out out = .ok (u0, u1) ∧
    u0.getColumnInfo = [⟨[98], .int, 32⟩] ∧ u0.cols.map (fun c => c.data.bits) = [8] ∧ ¬ ∃ w, u0.WF w := by
  obtain ⟨p0, p1, hv, -⟩ := exComposed
  have hw : exT.WF 3 := by
    refine ⟨?_, by decide, by decide, by decide⟩
    intro c hc
    simp only [exT, List.mem_singleton] at hc
    subst hc
    exact ⟨rfl, by decide, by unfold Shape; decide, by decide⟩
  have ho : exOut.WF 0 := by
    refine ⟨?_, by decide, by decide, by decide⟩
    intro c hc
    simp only [exOut, List.mem_singleton] at hc
    subst hc
    exact ⟨rfl, by decide, by unfold Shape; decide, by decide⟩
  obtain ⟨u0, u1, w, e, -, -, b0, -, -, -, -, -, -, hs, -⟩ := C35_extract hv (by decide) hw hw rfl rfl rfl (by decide) (by decide) exOut exOut
  have hinfo : u0.getColumnInfo = [⟨[98], .int, 32⟩] := hs rfl
  refine ⟨p0, p1, exT, exT, exOut, u0, u1, hv, hw, hw, rfl, rfl, rfl, by decide, ho, e, hinfo, b0, ?_⟩
  rintro ⟨w, hw⟩
  have := data_bits hw
  rw [List.map_map, hinfo] at this
  rw [show u0.cols.map ((·.bits) ∘ (·.data)) = u0.cols.map (fun c => c.data.bits) from rfl, b0] at this
  simp [exT, Table.getColumnInfo] at this

/-- The hypotheses of `C35_extract` and of `C35_refused` are met: flags 1, 0, 1 shared as 1, 0, 1 and 0, 0, 0. -/
example : ∃ p0 p1 t0 t1, ValidComposed 3 16 0 16 0 p0 p1 ∧ t0.WF 3 ∧ t1.WF 3 ∧ t0.getColumnInfo = t1.getColumnInfo ∧
    t0.isActive.length = 3 ∧ t1.isActive.length = 3 ∧ 0 + 1 + infoBytes t0.getColumnInfo ≤ 16 ∧
    ((sharedPerm p0 p1).filter (active t0 t1)).map (revRow t0 t1) = [[[7]], [[5]]] := by
  obtain ⟨p0, p1, hv, hs⟩ := exComposed
  have hw : ∀ f : List Byte, f.length = 3 → ∀ r : List Row, Shape 3 1 r → (⟨f, [⟨⟨[97], .int, 8⟩, ⟨8, 1, r⟩⟩]⟩ : Table).WF 3 := by
    intro f hf r hr
    refine ⟨?_, by simp, by simp, .inr hf⟩
    intro c hc
    simp only [List.mem_singleton] at hc
    subst hc
    have e : divCeil 8 8 = 1 := by decide
    exact ⟨rfl, e.symm, by rw [show divCeil _ 8 = 1 from e]; exact hr, by simp⟩
  refine ⟨p0, p1, exT, ⟨[0, 0, 0], [⟨⟨[97], .int, 8⟩, ⟨8, 1, [[0], [0], [0]]⟩⟩]⟩, hv, hw _ rfl _ (by unfold Shape; decide),
    hw _ rfl _ (by unfold Shape; decide), rfl, rfl, rfl, by decide, ?_⟩
  rw [hs]
  decide

end Extract
end SecJoin
