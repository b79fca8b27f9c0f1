import Mathlib.Data.Finset.Card
import Mathlib.Data.Finset.Range
import Verif.Prf.F3Lemmas
/-!
# The code modulo three: C50
-/
namespace SecJoin
namespace F3

open Mod3 (Block add trit Valid)

theorem op_lt {k : Nat} (ops : List (Nat × Nat)) (v : Nat → Nat) (h : ∀ i, i < k → v i < 3) : ∀ i, i < k → ops.foldl opFn v i < 3 := by
  induction ops generalizing v with
  | nil => exact h
  | cons o ops ih =>
    refine ih (opFn v o) fun i hi => ?_
    unfold opFn
    split
    · omega
    · exact h i hi

theorem op_congr {k : Nat} (ops : List (Nat × Nat)) (ho : ∀ o ∈ ops, o.1 < k ∧ o.2 < k) (v w : Nat → Nat) (h : ∀ i, i < k → v i = w i) :
    ∀ i, i < k → ops.foldl opFn v i = ops.foldl opFn w i := by
  induction ops generalizing v w with
  | nil => exact h
  | cons o ops ih =>
    refine ih (fun o ho' => ho o (by simp [ho'])) (opFn v o) (opFn w o) fun i hi => ?_
    unfold opFn
    rw [h _ (ho o (by simp)).1, h _ (ho o (by simp)).2, h i hi]

theorem mapRes_getD {β : Type} {f : Nat → Res β} {n : Nat} {g : Nat → β} (h : ∀ i, i < n → f i = .ok (g i)) :
    mapRes f (List.range n) = .ok ((List.range n).map g) := mapRes_ok fun i hi => h i (List.mem_range.1 hi)

/-- The last permutation. -/
def lastPerm (c : Code) : List Nat := c.perms.getLastD []

theorem last_ok {c : Code} (h : CodeOk c) : c.perms.getLast? = some (lastPerm c) ∧ (lastPerm c).length = c.k ∧
    ∀ i, i < c.n → (lastPerm c).getD i 0 < c.k := by
  have e : c.perms.getLast? = some (lastPerm c) := by
    rw [List.getLast?_eq_some_getLast h.ne, lastPerm, List.getLastD_eq_getLast?, List.getLast?_eq_some_getLast h.ne]
    rfl
  have hm : lastPerm c ∈ c.perms := List.mem_of_getLast? e
  obtain ⟨h1, h2, h3⟩ := h.perm _ hm
  refine ⟨e, h1, fun i hi => ?_⟩
  have hi' : i < (lastPerm c).length := by have := h.lt; omega
  rw [List.getD_eq_getElem?_getD, List.getElem?_eq_getElem hi']
  exact h3 _ (List.getElem_mem hi')

theorem enc_ops {c : Code} (h : CodeOk c) (x : List Nat) :
    (forFrom1 c.k (fun x i => addElt x i (i - 1)) x >>= fun x => c.perms.dropLast.foldlM (encPass c.k) x) =
      (allOps c).foldlM (fun s o => addElt s o.1 o.2) x := by
  rw [allOps, foldlM_ok_append, acc_ops]
  congr 1
  funext y
  exact perms_ops addElt (fun p hp => (h.perm p (List.dropLast_subset _ hp)).1) y

theorem mat_ops {c : Code} (h : CodeOk c) (x : List (List Nat)) :
    (forFrom1 c.k (fun x i => addRow x i (i - 1)) x >>= fun x => c.perms.dropLast.foldlM (matPass c.k) x) =
      (allOps c).foldlM (fun s o => addRow s o.1 o.2) x := by
  rw [allOps, foldlM_ok_append, acc_ops]
  congr 1
  funext y
  exact perms_ops addRow (fun p hp => (h.perm p (List.dropLast_subset _ hp)).1) y

theorem slice_ops {c : Code} (h : CodeOk c) (b s : Nat) (x : List (List (Block × Block))) :
    (forFrom1 c.k (fun x i => addSlice b s x i (i - 1)) x >>= fun x => c.perms.dropLast.foldlM (slicePass c.k b s) x) =
      (allOps c).foldlM (fun s' o => addSlice b s s' o.1 o.2) x := by
  rw [allOps, foldlM_ok_append, acc_ops]
  congr 1
  funext y
  exact perms_ops (addSlice b s) (fun p hp => (h.perm p (List.dropLast_subset _ hp)).1) y

theorem encode_run {c : Code} (h : CodeOk c) {x : List Nat} (hx : x.length = c.k) :
    ∃ x' y, encode c x c.n = .ok (x', y) ∧ y.length = c.n ∧
      ∀ i, i < c.n → y.getD i 0 = (allOps c).foldl opFn (x.getD · 0) ((lastPerm c).getD i 0) := by
  obtain ⟨hl1, hl2, hl3⟩ := last_ok h
  obtain ⟨x', e1, e2, e3⟩ := enc_run (allOps c) (ops_ok h) x hx
  refine ⟨x', (List.range c.n).map fun i => x'.getD ((lastPerm c).getD i 0) 0, ?_, by simp, fun i hi => ?_⟩
  · unfold encode
    rw [hx, bne_self_eq_false, bne_self_eq_false, throwIf_false, ok_bind, ok_bind]
    rw [← enc_ops h x] at e1
    rw [← bind_assoc, e1, ok_bind, hl1]
    simp only
    rw [mapRes_getD (g := fun i => x'.getD ((lastPerm c).getD i 0) 0), ok_bind]
    intro i hi
    rw [rd_getD (d := 0) (by have := h.lt; omega), ok_bind, rd_getD (d := 0) (by rw [e2]; exact hl3 i hi)]
  · rw [getD_mapRange hi, e3 _ (hl3 i hi)]

theorem matrix_run {c : Code} (h : CodeOk c) :
    ∃ M, getMatrix c = .ok M ∧ M.length = c.n ∧ (∀ i, i < c.n → (M.getD i []).length = c.k) ∧
      ∀ i, i < c.n → ∀ j, j < c.k → (M.getD i []).getD j 0 = (allOps c).foldl opFn (fun i => if i = j then 1 else 0) ((lastPerm c).getD i 0) := by
  obtain ⟨hl1, hl2, hl3⟩ := last_ok h
  obtain ⟨I, hI⟩ : ∃ I : List (List Nat), I = (List.range c.k).map fun i => (List.range c.k).map fun j => if i = j then 1 else 0 := ⟨_, rfl⟩
  have hIl : I.length = c.k := by simp [hI]
  have hIw : ∀ i, i < c.k → (I.getD i []).length = c.k := fun i hi => by rw [hI, getD_mapRange hi]; simp
  obtain ⟨N, e1, e2, e3, e4⟩ := mat_run (allOps c) (ops_ok h) I hIl hIw
  refine ⟨(List.range c.n).map fun i => N.getD ((lastPerm c).getD i 0) [], ?_, by simp, fun i hi => ?_, fun i hi j hj => ?_⟩
  · unfold getMatrix
    rw [← mat_ops h I] at e1
    simp only
    rw [← hI, ← bind_assoc, e1, ok_bind, hl1]
    simp only
    rw [mapRes_getD (g := fun i => N.getD ((lastPerm c).getD i 0) [])]
    intro i hi
    rw [rd_getD (d := 0) (by have := h.lt; omega), ok_bind, rd_getD (d := []) (by rw [e2]; exact hl3 i hi)]
  · rw [getD_mapRange hi, e3 _ (hl3 i hi)]
  · rw [getD_mapRange hi, e4 _ (hl3 i hi) j hj]
    refine op_congr (allOps c) (fun o ho => ⟨(ops_ok h o ho).1, (ops_ok h o ho).2.1⟩) _ _ (fun i hi => ?_) _ (hl3 i hi)
    rw [hI, getD_mapRange hi, getD_mapRange hj]

/-! ## C50 -/

/-- C50: `init` refuses codes that do not compress, and otherwise makes a code. -/
theorem C50_init {k n p logn : Nat} {draw : Nat → List Nat} (hd : ∀ i, (draw i).Perm (List.range k)) :
    (k ≤ n → init k n p logn draw = .error .throw) ∧ (n < k → ∃ c, init k n p logn draw = .ok c ∧ c.n = n ∧ c.k = k ∧ CodeOk c) := by
  refine ⟨fun hk => ?_, fun hk => ?_⟩
  · unfold init
    rw [decide_eq_true hk]
    rfl
  · unfold init
    rw [decide_eq_false (by omega)]
    refine ⟨_, rfl, rfl, rfl, hk, ?_, ?_⟩
    · simp only [ne_eq, List.map_eq_nil_iff, List.range_eq_nil]
      split
      · omega
      · assumption
    · intro q hq
      simp only [List.mem_map] at hq
      obtain ⟨i, -, rfl⟩ := hq
      exact ⟨by rw [(hd i).length_eq, List.length_range], (hd i).nodup_iff.2 List.nodup_range,
        fun x hx => List.mem_range.1 ((hd i).mem_iff.1 hx)⟩

/-- C50: the encoder multiplies by the matrix that the code reports. -/
theorem C50_matrix {c : Code} (h : CodeOk c) {x : List Nat} (hx : x.length = c.k) :
    ∃ x' y M, encode c x c.n = .ok (x', y) ∧ getMatrix c = .ok M ∧ y.length = c.n ∧ M.length = c.n ∧
      (∀ i, i < c.n → (M.getD i []).length = c.k) ∧
      (∀ i, i < c.n → y.getD i 0 % 3 = sumTo c.k (fun j => (M.getD i []).getD j 0 * x.getD j 0) % 3) ∧
      ((∀ i, i < c.k → x.getD i 0 < 3) → ∀ i, i < c.n → y.getD i 0 < 3) := by
  obtain ⟨hl1, hl2, hl3⟩ := last_ok h
  obtain ⟨x', y, e1, e2, e3⟩ := encode_run h hx
  obtain ⟨M, m1, m2, m3, m4⟩ := matrix_run h
  refine ⟨x', y, M, e1, m1, e2, m2, m3, fun i hi => ?_, fun hd i hi => ?_⟩
  · rw [e3 i hi, op_linear_id h _ _ (hl3 i hi)]
    congr 1
    exact sumTo_congr fun j hj => by rw [m4 i hi j hj]
  · rw [e3 i hi]
    exact op_lt _ _ hd _ (hl3 i hi)

/-- C50: the encoder is additive. -/
theorem C50_additive {c : Code} (h : CodeOk c) {x y z : List Nat} (hx : x.length = c.k) (hy : y.length = c.k) (hz : z.length = c.k)
    (hs : ∀ i, i < c.k → z.getD i 0 % 3 = (x.getD i 0 + y.getD i 0) % 3) :
    ∃ x' a y' b z' s, encode c x c.n = .ok (x', a) ∧ encode c y c.n = .ok (y', b) ∧ encode c z c.n = .ok (z', s) ∧
      ∀ i, i < c.n → s.getD i 0 % 3 = (a.getD i 0 + b.getD i 0) % 3 := by
  obtain ⟨x', a, M, a1, m1, -, -, -, a2, -⟩ := C50_matrix h hx
  obtain ⟨y', b, M2, b1, m2, -, -, -, b2, -⟩ := C50_matrix h hy
  obtain ⟨z', s, M3, s1, m3, -, -, -, s2, -⟩ := C50_matrix h hz
  rw [m1] at m2 m3
  cases m2
  cases m3
  refine ⟨x', a, y', b, z', s, a1, b1, s1, fun i hi => ?_⟩
  have e : sumTo c.k (fun j => (M.getD i []).getD j 0 * z.getD j 0) % 3 =
      sumTo c.k (fun j => (M.getD i []).getD j 0 * x.getD j 0 + (M.getD i []).getD j 0 * y.getD j 0) % 3 := by
    refine sumTo_mod fun j hj => ?_
    rw [← Nat.mul_add, Nat.mul_mod, hs j hj, ← Nat.mul_mod]
  have ha := a2 i hi
  have hb := b2 i hi
  rw [s2 i hi, e, sumTo_add]
  omega

/-- C50: wrong sizes are refused. -/
theorem C50_throws {c : Code} {x : List Nat} {m : Nat} (h : x.length ≠ c.k ∨ m ≠ c.n) : encode c x m = .error .throw := by
  unfold encode
  by_cases hx : x.length = c.k
  · rw [hx, bne_self_eq_false, throwIf_false, ok_bind, throwIf_ne (h.resolve_left fun k => k hx)]
    rfl
  · rw [throwIf_ne hx]
    rfl

/-! ### What the code is -/

/-- Sums along a permutation: position `p[j]` gets the sum of the positions `p[0], …, p[j]`. -/
def scanAlong (p : List Nat) (v : Nat → Nat) (i : Nat) : Nat := sumTo (p.idxOf i + 1) (fun j => v (p.getD j 0)) % 3

/-- The code written down without steps: sums from left to right, then sums along every permutation but the last, which chooses the output. -/
def codeSpec (k : Nat) (perms : List (List Nat)) (v : Nat → Nat) (i : Nat) : Nat :=
  (List.range k :: perms.dropLast).foldl (fun v p => scanAlong p v) v ((perms.getLastD []).getD i 0)

theorem pass_prefix {k : Nat} {p : List Nat} (hp : p.length = k) (hn : p.Nodup) (v : Nat → Nat) (m : Nat) (hm : m < k) :
    ∀ j, j < k → ((List.range m).map fun i => (p.getD (i + 1) 0, p.getD i 0)).foldl opFn v (p.getD j 0) % 3 =
      (if j ≤ m then sumTo (j + 1) (fun j => v (p.getD j 0)) else v (p.getD j 0)) % 3 := by
  induction m with
  | zero =>
    intro j hj
    by_cases h : j ≤ 0
    · obtain rfl : j = 0 := by omega
      simp [sumTo]
    · rw [if_neg h]
      rfl
  | succ m ih =>
    intro j hj
    have inj : ∀ a b, a < k → b < k → p.getD a 0 = p.getD b 0 → a = b := by
      intro a b ha hb h
      rw [List.getD_eq_getElem?_getD, List.getD_eq_getElem?_getD, List.getElem?_eq_getElem (by omega), List.getElem?_eq_getElem (by omega)] at h
      exact (List.Nodup.getElem_inj_iff hn).1 h
    rw [List.range_succ, List.map_append, List.foldl_append, List.map_cons, List.map_nil, List.foldl_cons, List.foldl_nil]
    have i1 := ih (by omega) (m + 1) hm
    have i2 := ih (by omega) m (by omega)
    have i3 := ih (by omega) j hj
    rw [if_neg (by omega)] at i1
    rw [if_pos (Nat.le_refl m)] at i2
    unfold opFn
    simp only
    by_cases h : p.getD j 0 = p.getD (m + 1) 0
    · obtain rfl := inj _ _ hj hm h
      rw [if_pos rfl, if_pos (Nat.le_refl _), sumTo, Nat.add_comm, Nat.mod_mod, Nat.add_mod]
      unfold opFn at i1 i2
      rw [i1, i2, ← Nat.add_mod]
    · rw [if_neg h]
      unfold opFn at i3
      rw [i3]
      have : j ≠ m + 1 := fun e => h (by rw [e])
      by_cases hj2 : j ≤ m
      · rw [if_pos hj2, if_pos (by omega)]
      · rw [if_neg hj2, if_neg (by omega)]

theorem pass_scan {k : Nat} {p : List Nat} (hp : p.length = k) (hn : p.Nodup) (hlt : ∀ x ∈ p, x < k) (v : Nat → Nat) (hv : ∀ i, i < k → v i < 3) :
    ∀ i, i < k → (passOps k p).foldl opFn v i = scanAlong p v i := by
  intro i hi
  have hmem : i ∈ p := by
    have : p.toFinset = Finset.range k := by
      refine Finset.eq_of_subset_of_card_le (fun x hx => ?_) ?_
      · rw [Finset.mem_range]
        exact hlt x (List.mem_toFinset.1 hx)
      · rw [Finset.card_range, List.toFinset_card_of_nodup hn, hp]
    rw [← List.mem_toFinset, this, Finset.mem_range]
    exact hi
  have hj : p.idxOf i < k := by rw [← hp]; exact List.idxOf_lt_length_of_mem hmem
  have hg : p.getD (p.idxOf i) 0 = i := by
    rw [List.getD_eq_getElem?_getD, List.getElem?_eq_getElem (by omega), Option.getD_some, List.getElem_idxOf]
  have h := pass_prefix hp hn v (k - 1) (by omega) (p.idxOf i) hj
  rw [if_pos (by omega), hg] at h
  have h3 := op_lt (k := k) (passOps k p) v hv i hi
  unfold scanAlong
  rw [← h]
  exact (Nat.mod_eq_of_lt h3).symm

/-- C50: the code is what it is meant to be. Reduced digits are summed from left to right and along all permutations but the last, and the
last one chooses the output. -/
theorem C50_code {c : Code} (h : CodeOk c) {x : List Nat} (hx : x.length = c.k) (hd : ∀ i, i < c.k → x.getD i 0 < 3) :
    ∃ x' y, encode c x c.n = .ok (x', y) ∧ y.length = c.n ∧ ∀ i, i < c.n → y.getD i 0 = codeSpec c.k c.perms (x.getD · 0) i := by
  obtain ⟨hl1, hl2, hl3⟩ := last_ok h
  obtain ⟨x', y, e1, e2, e3⟩ := encode_run h hx
  refine ⟨x', y, e1, e2, fun i hi => ?_⟩
  rw [e3 i hi, codeSpec]
  have main : ∀ (ps : List (List Nat)) (v w : Nat → Nat), (∀ p ∈ ps, p.length = c.k ∧ p.Nodup ∧ ∀ x ∈ p, x < c.k) →
      (∀ i, i < c.k → v i < 3) → (∀ i, i < c.k → v i = w i) →
      ∀ i, i < c.k → (ps.flatMap (passOps c.k)).foldl opFn v i = ps.foldl (fun v p => scanAlong p v) w i := by
    intro ps
    induction ps with
    | nil => exact fun v w _ _ hw => hw
    | cons p ps ih =>
      intro v w hp hv hw i hi
      obtain ⟨p1, p2, p3⟩ := hp p (by simp)
      rw [List.flatMap_cons, List.foldl_append, List.foldl_cons]
      refine ih _ _ (fun q hq => hp q (by simp [hq])) (op_lt _ v hv) (fun i hi => ?_) i hi
      rw [pass_scan p1 p2 p3 v hv i hi, scanAlong, scanAlong]
      congr 1
      refine sumTo_congr fun j hj => hw _ ?_
      have : p.idxOf i ≤ p.length := List.idxOf_le_length
      by_cases hjl : j < p.length
      · rw [List.getD_eq_getElem?_getD, List.getElem?_eq_getElem hjl]
        exact p3 _ (List.getElem_mem hjl)
      · rw [List.getD_eq_getElem?_getD, List.getElem?_eq_none (by omega)]
        show 0 < c.k
        omega
  have hall : allOps c = (List.range c.k :: c.perms.dropLast).flatMap (passOps c.k) := by
    rw [allOps, List.flatMap_cons]
    congr 1
    refine List.map_congr_left fun i hi => ?_
    rw [List.mem_range] at hi
    simp [List.getD_eq_getElem?_getD, show i + 1 < c.k by omega, show i < c.k by omega]
  rw [hall]
  refine main _ _ _ (fun p hp => ?_) hd (fun _ _ => rfl) _ (hl3 i hi)
  rcases List.mem_cons.1 hp with rfl | hp
  · exact ⟨by simp, List.nodup_range, fun x hx => List.mem_range.1 hx⟩
  · exact h.perm p (List.dropLast_subset _ hp)

/-! ### Bit slices -/

/-- The digits in column `j` at position `p`. -/
def digits (st : List (List (Block × Block))) (j p : Nat) : List Nat := (List.range st.length).map (dig st j p)

theorem batch_run {c : Code} (h : CodeOk c) {len b s : Nat} {st out : List (List (Block × Block))} (hs : Shape st c.k len) (ho : Shape out c.n len)
    (hv : ∀ i, i < c.k → ∀ j, j < len → b ≤ j → j < b + s → Valid (cell st i j).1 (cell st i j).2) :
    ∃ st' out', sliceBatch c b s st out = .ok (st', out') ∧ Shape st' c.k len ∧ Shape out' c.n len ∧
      (∀ i, i < c.k → ∀ j, j < len → ¬ (b ≤ j ∧ j < b + s) → cell st' i j = cell st i j) ∧
      (∀ i, i < c.n → ∀ j, j < len → ¬ (b ≤ j ∧ j < b + s) → cell out' i j = cell out i j) ∧
      ∀ i, i < c.n → ∀ j, j < len → b ≤ j → j < b + s → Valid (cell out' i j).1 (cell out' i j).2 ∧
        ∀ p, p < 128 → dig out' j p i = (allOps c).foldl opFn (dig st j p) ((lastPerm c).getD i 0) := by
  obtain ⟨hl1, hl2, hl3⟩ := last_ok h
  obtain ⟨st', e1, e2, e3, e4⟩ := slice_run (begin := b) (s := s) (allOps c) (ops_ok h) st hs hv
  obtain ⟨O, hO⟩ : ∃ O, O = (List.range c.n).map fun i => copySlice b s (out.getD i []) (st'.getD ((lastPerm c).getD i 0) []) := ⟨_, rfl⟩
  have hcell : ∀ i, i < c.n → ∀ j, j < len → cell O i j = if b ≤ j ∧ j < b + s then cell st' ((lastPerm c).getD i 0) j else cell out i j := by
    intro i hi j hj
    rw [cell, hO, getD_mapRange hi, copySlice, getD_mapRange (by rw [ho.2 i hi]; exact hj)]
    rfl
  refine ⟨st', O, ?_, e2, ⟨by simp [hO], fun i hi => ?_⟩, e3, fun i hi j hj hb => ?_, fun i hi j hj b1 b2 => ?_⟩
  · unfold sliceBatch
    rw [← slice_ops h] at e1
    rw [← bind_assoc, e1, ok_bind, hl1]
    simp only
    rw [mapRes_getD (g := fun i => copySlice b s (out.getD i []) (st'.getD ((lastPerm c).getD i 0) [])), ok_bind, hO]
    intro i hi
    rw [rd_getD (d := 0) (by have := h.lt; omega), ok_bind, rd_getD (d := []) (by rw [e2.1]; exact hl3 i hi), ok_bind,
      rd_getD (d := []) (by rw [ho.1]; exact hi), ok_bind]
  · rw [hO, getD_mapRange hi, copySlice]
    simp [ho.2 i hi]
    simpa [List.getD_eq_getElem?_getD] using ho.2 i hi
  · rw [hcell i hi j hj, if_neg hb]
  · rw [hcell i hi j hj, if_pos ⟨b1, b2⟩]
    obtain ⟨g1, g2⟩ := e4 _ (hl3 i hi) j hj b1 b2
    refine ⟨g1, fun p hp => ?_⟩
    rw [dig, hcell i hi j hj, if_pos ⟨b1, b2⟩, ← g2 p hp]
    rfl

/-- C50: the bit-sliced encoder computes in every column and position what the encoder for one vector does, whatever the batch
size; the old content of the output does not matter. -/
theorem C50_slices {c : Code} (h : CodeOk c) {len batch : Nat} {st out : List (List (Block × Block))} (hs : Shape st c.k len)
    (ho : Shape out c.n len) (hb : 0 < batch) (hv : ∀ i, i < c.k → ∀ j, j < len → Valid (cell st i j).1 (cell st i j).2) :
    ∃ st' out', encodeSlices c len st out batch = .ok (st', out') ∧ Shape out' c.n len ∧
      ∀ i, i < c.n → ∀ j, j < len → Valid (cell out' i j).1 (cell out' i j).2 ∧ ∀ p, p < 128 →
        ∃ x' y, encode c (digits st j p) c.n = .ok (x', y) ∧ dig out' j p i = y.getD i 0 := by
  obtain ⟨hl1, hl2, hl3⟩ := last_ok h
  have main : ∀ n, ∃ st' out', (List.range n).foldlM (fun (so : List (List (Block × Block)) × List (List (Block × Block))) b =>
        sliceBatch c (b * batch) (min batch (len - b * batch)) so.1 so.2) (st, out) = Except.ok (ε := Err) (st', out') ∧
      Shape st' c.k len ∧ Shape out' c.n len ∧
      (∀ i, i < c.k → ∀ j, j < len → n * batch ≤ j → cell st' i j = cell st i j) ∧
      ∀ i, i < c.n → ∀ j, j < len → j < n * batch → Valid (cell out' i j).1 (cell out' i j).2 ∧
        ∀ p, p < 128 → dig out' j p i = (allOps c).foldl opFn (dig st j p) ((lastPerm c).getD i 0) := by
    intro n
    induction n with
    | zero => exact ⟨st, out, rfl, hs, ho, fun _ _ _ _ _ => rfl, fun i hi j hj hn => by omega⟩
    | succ n ih =>
      obtain ⟨s1, o1, e1, e2, e3, e4, e5⟩ := ih
      have hmul : (n + 1) * batch = n * batch + batch := by ring
      obtain ⟨s2, o2, f1, f2, f3, f4, f5, f6⟩ := batch_run h (b := n * batch) (s := min batch (len - n * batch)) e2 e3
        (fun i hi j hj b1 b2 => by rw [e4 i hi j hj b1]; exact hv i hi j hj)
      refine ⟨s2, o2, ?_, f2, f3, fun i hi j hj hn => ?_, fun i hi j hj hn => ?_⟩
      · rw [List.range_succ, foldlM_ok_append, e1, ok_bind, List.foldlM_cons, f1, ok_bind]
        rfl
      · rw [f4 i hi j hj (by omega), e4 i hi j hj (by omega)]
      · by_cases hj2 : j < n * batch
        · obtain ⟨g1, g2⟩ := e5 i hi j hj hj2
          have hc := f5 i hi j hj (by omega)
          rw [hc]
          refine ⟨g1, fun p hp => ?_⟩
          rw [← g2 p hp, dig, hc]
          rfl
        · obtain ⟨g1, g2⟩ := f6 i hi j hj (by omega) (by omega)
          refine ⟨g1, fun p hp => ?_⟩
          rw [g2 p hp]
          refine op_congr (allOps c) (fun o ho => ⟨(ops_ok h o ho).1, (ops_ok h o ho).2.1⟩) _ _ (fun i hi => ?_) _ (hl3 i hi)
          rw [dig, dig, e4 i hi j hj (by omega)]
  obtain ⟨s1, o1, e1, e2, e3, e4, e5⟩ := main (divCeil len batch)
  refine ⟨s1, o1, ?_, e3, fun i hi j hj => ?_⟩
  · unfold encodeSlices
    have a : (out.any fun r => r.length != len) = false := by
      rw [List.any_eq_false]
      intro r hr
      obtain ⟨i, hi, rfl⟩ := List.getElem_of_mem hr
      have := ho.2 i (by rw [← ho.1]; exact hi)
      rw [List.getD_eq_getElem?_getD, List.getElem?_eq_getElem hi, Option.getD_some] at this
      simpa using this
    rw [hs.1, ho.1, bne_self_eq_false, bne_self_eq_false, a, throwIf_false, ok_bind, ok_bind, ok_bind, if_neg (by omega)]
    exact e1
  · have hlt : len ≤ divCeil len batch * batch := by
      unfold divCeil
      have h1 := Nat.div_add_mod (len + batch - 1) batch
      have h2 := Nat.mod_lt (len + batch - 1) hb
      rw [Nat.mul_comm] at h1
      omega
    obtain ⟨g1, g2⟩ := e5 i hi j hj (by omega)
    refine ⟨g1, fun p hp => ?_⟩
    obtain ⟨x', y, y1, y2, y3⟩ := encode_run h (x := digits st j p) (by simp [digits, hs.1])
    refine ⟨x', y, y1, ?_⟩
    rw [y3 i hi, g2 p hp]
    refine op_congr (allOps c) (fun o ho => ⟨(ops_ok h o ho).1, (ops_ok h o ho).2.1⟩) _ _ (fun i hi => ?_) _ (hl3 i hi)
    rw [digits, getD_mapRange (by rw [hs.1]; exact hi)]

/-- A code from four digits to two with two permutations. -/
def exCode : Code := ⟨2, 4, [[2, 0, 3, 1], [0, 3, 1, 2]]⟩
theorem exCode_ok : CodeOk exCode := ⟨by decide, by decide, by decide⟩
example : [1, 2, 0, 2].length = exCode.k := rfl
example : ∀ i, i < exCode.k → [1, 2, 0, 2].getD i 0 < 3 := by decide
example : encode exCode [1, 2, 0, 2] 2 = .ok ([1, 0, 0, 0], [1, 0]) := by decide +kernel
example : ∀ i : Nat, ((fun i => if i = 0 then [2, 0, 3, 1] else List.range 4) i : List Nat).Perm (List.range 4) := by
  intro i
  simp only
  split <;> decide
/-- Bit slices with three columns and batches of two. -/
example : Shape (List.replicate 4 [((1 : Block), (2 : Block)), (4, 3), (0, 7)]) exCode.k 3 := by
  unfold Shape
  decide +kernel
example : ∀ i, i < exCode.k → ∀ j, j < 3 → Valid (cell (List.replicate 4 [((1 : Block), (2 : Block)), (4, 3), (0, 7)]) i j).1
    (cell (List.replicate 4 [((1 : Block), (2 : Block)), (4, 3), (0, 7)]) i j).2 := by
  unfold Valid
  decide +kernel

end F3
end SecJoin
