import Verif.Sort.DebugRound
/-!
# A sort in debug mode
-/
namespace SecJoin
namespace Radix

/-! ## extract -/

theorem checkBits_eq {m : List Byte} {a : Nat} {b : Byte} : ∀ (c j : Nat), a + j + c ≤ 8 * m.length →
    checkBits m a b c j = if ∀ t, t < c → b.getLsbD (j + t) = bitOf m (a + j + t) then .ok () else .error .throw := by
  intro c
  induction c with
  | zero => intro j _; rw [if_pos (by intro t ht; omega)]; rfl
  | succ c ih =>
    intro j h
    rw [checkBits, flatBit_ok (by omega), ok_bind, throwIf_ok, ih (j + 1) (by omega)]
    simp only [forall_cons (n := c), Nat.add_zero, show ∀ t, j + 1 + t = j + (t + 1) from fun t => by omega,
      show ∀ t, a + (j + 1) + t = a + j + (t + 1) from fun t => by omega]
    by_cases e : b.getLsbD j = bitOf m (a + j)
    · rw [bne_of_eq e.symm, if_neg (by simp)]
      exact if_congr ⟨fun h' => ⟨e, h'⟩, fun h' => h'.2⟩ rfl rfl
    · rw [bne_of_ne (fun h' => e h'.symm), if_pos rfl, if_neg (fun h' => e h'.1)]

theorem checkExtract_eq {m : List Byte} {cols begin size : Nat} (hs : begin + size ≤ cols * 8) : ∀ (v : List Byte) (i : Nat),
    (i + v.length) * cols ≤ m.length →
    checkExtract m cols begin size i v = if ∀ t, t < v.length - 1 → ∀ j, j < size →
      (v.getD t 0).getLsbD j = bitOf m ((i + t) * cols * 8 + begin + j) then .ok () else .error .throw := by
  intro v
  induction v with
  | nil => intro i _; rw [if_pos (by intro t ht; simp at ht)]; rfl
  | cons b v ih =>
    intro i h
    match v with
    | [] => rw [if_pos (by intro t ht; simp at ht)]; rfl
    | c :: r =>
      rw [List.length_cons] at h
      have hlen : (i + 1) * cols ≤ m.length := Nat.le_trans (Nat.mul_le_mul_right _ (by omega)) h
      rw [Nat.add_mul, Nat.one_mul] at hlen
      rw [checkExtract, checkBits_eq size 0 (by omega), ih (i + 1)
        (by rw [show i + 1 + (c :: r).length = i + ((c :: r).length + 1) by omega]; exact h)]
      have hsplit : (∀ t, t < (b :: c :: r).length - 1 → ∀ j, j < size →
          ((b :: c :: r).getD t 0).getLsbD j = bitOf m ((i + t) * cols * 8 + begin + j)) ↔
          (∀ j, j < size → b.getLsbD j = bitOf m (i * cols * 8 + begin + j)) ∧
          ∀ t, t < (c :: r).length - 1 → ∀ j, j < size →
            ((c :: r).getD t 0).getLsbD j = bitOf m ((i + 1 + t) * cols * 8 + begin + j) := by
        constructor
        · intro h'
          refine ⟨h' 0 (by simp), fun t ht => ?_⟩
          have := h' (t + 1) (by simp only [List.length_cons] at ht ⊢; omega)
          rw [show i + 1 + t = i + (t + 1) by omega]
          exact this
        · rintro ⟨h0, h1⟩ t ht
          cases t with
          | zero => exact h0
          | succ t =>
            rw [show i + (t + 1) = i + 1 + t by omega]
            exact h1 t (by simp only [List.length_cons] at ht ⊢; omega)
      simp only [Nat.zero_add, Nat.add_zero]
      by_cases e : ∀ j, j < size → b.getLsbD j = bitOf m (i * cols * 8 + begin + j)
      · rw [if_pos e, ok_bind]
        exact if_congr (by rw [hsplit]; exact ⟨fun h' => ⟨e, h'⟩, fun h' => h'.2⟩) rfl rfl
      · rw [if_neg e, err_bind, if_neg (fun h' => e (hsplit.mp h').1)]

theorem flat_bit {n c : Nat} {x : List Row} (h : Shape n c x) {i k : Nat} (hi : i < n) (hk : k < 8 * c) :
    bitOf x.flatten (i * c * 8 + k) = bitOf (x.getD i []) k := by
  unfold bitOf
  rw [show (i * c * 8 + k) / 8 = i * c + k / 8 by omega, show (i * c * 8 + k) % 8 = k % 8 by omega,
    flat_getD h hi (by omega)]
  rfl

theorem extractD_ok {n begin size : Nat} {k : Mat Row} (hk : Shape n k.cols k.rows) (hn : 0 < n)
    (hb : begin < 8 * k.cols) (h0 : 0 < size) (h8 : size ≤ 8) : extractD begin size k = .ok (digits begin size k) := by
  unfold extractD
  rw [extract_ok hk hn hb h0 h8, ok_bind]
  simp only [if_pos (show begin ≤ k.cols * 8 by omega)]
  rw [checkExtract_eq (by omega) _ _ (by rw [digits_length, flatten_len hk.2, Nat.zero_add]), if_pos, ok_bind]
  intro t ht j hj
  rw [digits_length, hk.1] at ht
  rw [digits_bit hk hb h0 h8 (by omega) (by omega), decide_eq_true (by omega), Bool.true_and, Nat.zero_add, Nat.add_assoc,
    flat_bit hk (by omega) (by omega)]

theorem digits_val1 {n begin L : Nat} {k : Mat Row} (hk : Shape n k.cols k.rows)
    (hb : begin < 8 * k.cols) (hL : 0 < L) (h8 : L ≤ 8) {i : Nat} (hi : i < n) :
    ((digits begin L k).getD i 0).toNat = rowKey k.rows i / 2 ^ begin % 2 ^ L := by
  apply Nat.eq_of_testBit_eq
  intro j
  rw [Nat.testBit_mod_two_pow, Nat.testBit_div_two_pow, rowKey, bytesNat_testBit, BitVec.testBit_toNat]
  by_cases hj : j < 8
  · rw [digits_bit hk hb hL h8 hi hj, Nat.add_comm begin j]
  · rw [BitVec.getLsbD_of_ge _ _ (by omega), decide_eq_false (by omega)]
    rfl

/-! ## The plaintext sort of `debugGenPerm` -/

theorem gather_inv_rank {n : Nat} (key : Nat → Nat) {x : List α} (hx : x.length = n) {a : Nat} (ha : a < n) :
    (gather (invList ((List.range n).map (rank n key))) x)[rank n key a]? = x[a]? := by
  have hp := rankList_perm n key
  have hl : ((List.range n).map (rank n key)).length = n := by simp
  have hb : ∀ y ∈ invList ((List.range n).map (rank n key)), y < x.length := by
    intro y hy; have := (invList_isPerm hp).1 y hy; rw [invList_length, hl] at this; omega
  have ha' : a < ((List.range n).map (rank n key)).length := by rw [hl]; exact ha
  have e := idxOf_getElem' hp.2 ha'
  rw [show ((List.range n).map (rank n key))[a] = rank n key a by simp] at e
  rw [gather_getElem? hb, invList_getElem? (by rw [hl]; exact rank_lt key ha), e]
  rfl

theorem gather_inv_length {n : Nat} (key : Nat → Nat) {x : List α} (hx : x.length = n) :
    (gather (invList ((List.range n).map (rank n key))) x).length = n := by
  have hp := rankList_perm n key
  have hl : ((List.range n).map (rank n key)).length = n := by simp
  rw [gather_length, invList_length, hl]
  intro y hy; have := (invList_isPerm hp).1 y hy; rw [invList_length, hl] at this; omega

theorem checkOrder_ok {gt : Nat → Row → Row → Bool} {len : Nat} : ∀ x : List Row,
    (∀ t, t + 1 < x.length → gt len (x.getD t []) (x.getD (t + 1) []) = false) → checkOrder gt len x = .ok () := by
  intro x
  induction x with
  | nil => intro _; rfl
  | cons a x ih =>
    intro h
    match x with
    | [] => rfl
    | b :: r =>
      rw [checkOrder, show gt len a b = false from h 0 (by simp), throwIf_false, ok_bind]
      exact ih fun t ht => h (t + 1) (by simpa using ht)

/-- The comparison of bit vectors compares the numbers, bit 0 the lowest. -/
def GtOk (gt : Nat → Row → Row → Bool) : Prop := ∀ len a b, a.length = b.length → len ≤ 8 * a.length →
  gt len a b = decide (leValue b % 2 ^ len < leValue a % 2 ^ len)

theorem order_ok {gt : Nat → Row → Row → Bool} (hgt : GtOk gt) {n m bits : Nat} {kk : Mat Row} (hk : Shape n kk.cols kk.rows)
    (hbits : bits ≤ 8 * kk.cols) (hpad : ∀ i, i < n → rowKey kk.rows i < 2 ^ bits) :
    checkOrder gt (min m bits) (gather (invList ((List.range n).map (rank n fun a => rowKey kk.rows a % 2 ^ m))) kk.rows) =
      .ok () := by
  apply checkOrder_ok
  intro t ht
  rw [gather_inv_length _ hk.1] at ht
  have hex : ∀ s, s < n → ∃ a, a < n ∧ rank n (fun a => rowKey kk.rows a % 2 ^ m) a = s := by
    intro s hs
    have : s ∈ (Finset.range n).image (rank n fun a => rowKey kk.rows a % 2 ^ m) := by
      rw [rank_image]; exact Finset.mem_range.mpr hs
    obtain ⟨a, ha, e⟩ := Finset.mem_image.mp this
    exact ⟨a, Finset.mem_range.mp ha, e⟩
  obtain ⟨a, ha, ea⟩ := hex t (by omega)
  obtain ⟨b, hb, eb⟩ := hex (t + 1) ht
  have ga : (gather (invList ((List.range n).map (rank n fun a => rowKey kk.rows a % 2 ^ m))) kk.rows).getD t [] =
      kk.rows.getD a [] := by
    rw [List.getD_eq_getElem?_getD, List.getD_eq_getElem?_getD, ← gather_inv_rank (fun a => rowKey kk.rows a % 2 ^ m) hk.1 ha, ea]
  have gb : (gather (invList ((List.range n).map (rank n fun a => rowKey kk.rows a % 2 ^ m))) kk.rows).getD (t + 1) [] =
      kk.rows.getD b [] := by
    rw [List.getD_eq_getElem?_getD, List.getD_eq_getElem?_getD, ← gather_inv_rank (fun a => rowKey kk.rows a % 2 ^ m) hk.1 hb, eb]
  have hord := (rank_lt_iff (n := n) (fun a => rowKey kk.rows a % 2 ^ m) ha hb).mp (by omega)
  have hval : ∀ i, i < n → leValue (kk.rows.getD i []) % 2 ^ min m bits = rowKey kk.rows i % 2 ^ m := by
    intro i hi
    rw [leValue_eq]
    rcases Nat.le_total m bits with h | h
    · rw [Nat.min_eq_left h]; rfl
    · rw [Nat.min_eq_right h]
      have h1 := hpad i hi
      rw [show Table.bytesNat (kk.rows.getD i []) = rowKey kk.rows i from rfl, Nat.mod_eq_of_lt h1,
        Nat.mod_eq_of_lt (Nat.lt_of_lt_of_le h1 (Nat.pow_le_pow_right (by omega) h))]
  have la := shape_getD hk ha
  have lb := shape_getD hk hb
  rw [ga, gb, hgt _ _ _ (by rw [la, lb]) (by rw [la]; omega), hval a ha, hval b hb]
  unfold KeyOrder at hord
  simp only at hord
  exact decide_eq_false (by omega)

theorem gather_rank {n : Nat} (key : Nat → Nat) (q : Nat → Nat) :
    gather ((List.range n).map (rank n key)) ((List.range n).map q) = (List.range n).map fun i => q (rank n key i) := by
  have hb : ∀ y ∈ (List.range n).map (rank n key), y < ((List.range n).map q).length := by
    intro y hy
    obtain ⟨a, ha, rfl⟩ := List.mem_map.mp hy
    rw [List.mem_range] at ha
    simpa using rank_lt key ha
  apply List.ext_getElem?
  intro i
  rw [gather_getElem? hb]
  by_cases hi : i < n
  · simp [hi, rank_lt key hi]
  · simp [hi]

theorem debugLoop_ok {gt : Nat → Row → Row → Bool} (hgt : GtOk gt) {n bits L : Nat} (hn0 : 0 < n) (h1 : 1 ≤ L) (h8 : L ≤ 8)
    {kk : Mat Row} (hk : Shape n kk.cols kk.rows) (hbits : bits ≤ 8 * kk.cols)
    (hpad : ∀ i, i < n → rowKey kk.rows i < 2 ^ bits) :
    ∀ (left kIdx : Nat), (∀ t, t < left → kIdx + t * L < 8 * kk.cols) →
      ∃ ps, debugLoop gt bits L kk left kIdx ⟨(List.range n).map (rank n fun a => rowKey kk.rows a % 2 ^ kIdx)⟩ = .ok ps ∧
        ps.length = left ∧
        ps.foldl (fun d p => gather d p.pi) ((List.range n).map (rank n fun a => rowKey kk.rows a % 2 ^ kIdx)) =
          (List.range n).map (rank n fun a => rowKey kk.rows a % 2 ^ (kIdx + left * L)) := by
  intro left
  induction left with
  | zero => intro kIdx _; exact ⟨[], rfl, rfl, by simp⟩
  | succ left ih =>
    intro kIdx hl
    have hk0 : kIdx < 8 * kk.cols := by have := hl 0 (by omega); omega
    have hp := rankList_perm n fun a => rowKey kk.rows a % 2 ^ kIdx
    have hlen : ((List.range n).map (rank n fun a => rowKey kk.rows a % 2 ^ kIdx)).length = n := by simp
    have hsz : (Perm.mk ((List.range n).map (rank n fun a => rowKey kk.rows a % 2 ^ kIdx))).size = n := by simp [Perm.size]
    have hdl : (digits kIdx L kk).length = n := by rw [digits_length, hk.1]
    rw [debugLoop, extractD_ok hk hn0 hk0 h1 h8, ok_bind,
      Perm.apply_inverse_eq (p := ⟨_⟩) (src := ⟨1, _⟩) (dst := ⟨1, _⟩) hp (by rw [hsz]; exact hdl) (by rw [hsz]; exact hdl) rfl, ok_bind]
    simp only
    rw [bytePerm_ok, ok_bind, gather_inv_length _ hdl]
    rw [Perm.compose_eq (p := ⟨_⟩) (q := ⟨_⟩) hp.1 (by simp [Perm.size]), ok_bind, gather_rank]
    have hnew : ((List.range n).map fun i => rank n (fun a => ((gather (invList ((List.range n).map (rank n fun a =>
          rowKey kk.rows a % 2 ^ kIdx))) (digits kIdx L kk)).getD a 0).toNat) (rank n (fun a => rowKey kk.rows a % 2 ^ kIdx) i)) =
        (List.range n).map (rank n fun a => rowKey kk.rows a % 2 ^ (kIdx + L)) := by
      apply List.map_congr_left
      intro i hi
      rw [List.mem_range] at hi
      rw [rank_step (M := 2 ^ kIdx) (dig := fun a => rowKey kk.rows a / 2 ^ kIdx % 2 ^ L) (fun a _ => Nat.mod_lt _ (Nat.two_pow_pos _)) _ hi]
      · apply rank_congr _ hi
        intro a _
        rw [Nat.pow_add, Nat.mod_mul]
      · intro a ha
        rw [← digits_val1 hk hk0 h1 h8 ha, List.getD_eq_getElem?_getD, gather_inv_rank _ hdl ha, ← List.getD_eq_getElem?_getD]
    rw [hnew]
    have hp2 := rankList_perm n fun a => rowKey kk.rows a % 2 ^ (kIdx + L)
    have hsz2 : (Perm.mk ((List.range n).map (rank n fun a => rowKey kk.rows a % 2 ^ (kIdx + L)))).size = n := by simp [Perm.size]
    rw [Perm.apply_inverse_eq (p := ⟨_⟩) hp2 (by rw [hsz2]; exact hk.1) (by rw [hsz2]; exact hk.1) rfl, ok_bind]
    simp only
    rw [order_ok hgt hk hbits hpad, ok_bind]
    obtain ⟨ps, e, lp, hf⟩ := ih (kIdx + L) (fun t ht => by have := hl (t + 1) (by omega); rw [Nat.add_mul] at this; omega)
    rw [e, ok_bind]
    refine ⟨_, rfl, by simp [lp], ?_⟩
    rw [List.foldl_cons]
    simp only
    rw [gather_rank, hnew, hf, show kIdx + (left + 1) * L = kIdx + L + left * L by rw [Nat.add_mul]; omega]

theorem debugGenPerm_ok {gt : Nat → Row → Row → Bool} (hgt : GtOk gt) {n bits L : Nat} (hn0 : 0 < n) (hb : 0 < bits)
    (h1 : 1 ≤ L) (h8 : L ≤ 8) {kk : Mat Row} (hk : Shape n kk.cols kk.rows) (hbits : bits ≤ 8 * kk.cols)
    (hpad : ∀ i, i < n → rowKey kk.rows i < 2 ^ bits) :
    ∃ ps, debugGenPerm gt bits L kk = .ok ps ∧ ps.length = divCeil bits L ∧
      ps.foldl (fun d p => gather d p.pi) (List.range n) = (List.range n).map (rank n (rowKey kk.rows)) := by
  have hR : 0 < divCeil bits L := by unfold divCeil; apply Nat.div_pos <;> omega
  have hRL : (divCeil bits L - 1) * L < bits := by
    have : divCeil bits L * L ≤ bits + L - 1 := Nat.div_mul_le_self _ _
    rw [Nat.sub_mul]; omega
  have hRU : bits ≤ L + (divCeil bits L - 1) * L := by
    have := Nat.div_add_mod (bits + L - 1) L
    have hm := Nat.mod_lt (bits + L - 1) (show 0 < L by omega)
    have e : divCeil bits L * L = L + (divCeil bits L - 1) * L := by
      rw [Nat.sub_mul]
      have : L ≤ divCeil bits L * L := Nat.le_mul_of_pos_left _ hR
      omega
    rw [← e, Nat.mul_comm]
    unfold divCeil
    omega
  have hdl : (digits 0 L kk).length = n := by rw [digits_length, hk.1]
  unfold debugGenPerm
  rw [extractD_ok hk hn0 (by omega) h1 h8, ok_bind, bytePerm_ok, ok_bind, hdl]
  have hnew : (List.range n).map (rank n fun a => ((digits 0 L kk).getD a 0).toNat) =
      (List.range n).map (rank n fun a => rowKey kk.rows a % 2 ^ L) := by
    apply List.map_congr_left
    intro i hi
    rw [List.mem_range] at hi
    apply rank_congr _ hi
    intro a ha
    rw [digits_val1 hk (by omega) h1 h8 ha, Nat.pow_zero, Nat.div_one]
  rw [hnew]
  have hp2 := rankList_perm n fun a => rowKey kk.rows a % 2 ^ L
  have hsz2 : (Perm.mk ((List.range n).map (rank n fun a => rowKey kk.rows a % 2 ^ L))).size = n := by simp [Perm.size]
  rw [Perm.apply_inverse_eq (p := ⟨_⟩) hp2 (by rw [hsz2]; exact hk.1) (by rw [hsz2]; exact hk.1) rfl, ok_bind]
  simp only
  rw [order_ok hgt hk hbits hpad, ok_bind]
  obtain ⟨ps, e, lp, hf⟩ := debugLoop_ok hgt hn0 h1 h8 hk hbits hpad (divCeil bits L - 1) L (fun t ht => by
    have : (t + 1) * L ≤ (divCeil bits L - 1) * L := Nat.mul_le_mul_right _ ht
    rw [Nat.add_mul] at this
    omega)
  rw [e, ok_bind]
  refine ⟨_, rfl, by simp [lp]; omega, ?_⟩
  rw [List.foldl_cons]
  simp only
  rw [show gather (List.range n) ((List.range n).map (rank n fun a => rowKey kk.rows a % 2 ^ L)) =
    (List.range n).map (rank n fun a => rowKey kk.rows a % 2 ^ L) by
      have := gather_range ((List.range n).map (rank n fun a => rowKey kk.rows a % 2 ^ L))
      rw [List.length_map, List.length_range] at this
      exact this, hf]
  apply List.map_congr_left
  intro i hi
  rw [List.mem_range] at hi
  apply rank_congr _ hi
  intro a ha
  exact Nat.mod_eq_of_lt (Nat.lt_of_lt_of_le (hpad a ha) (Nat.pow_le_pow_right (by omega) hRU))

/-! ## The sort -/

/-- The digits sorted by the earlier rounds are still of `L` bits. -/
theorem step_digits {n L W0 o0 W1 o1 : Nat} (hn0 : 0 < n)
    {c0 c1 : ComposedPerm} {r : RoundRnd} (hs : StepOk n L W0 o0 W1 o1 (c0, c1, r)) {key : Nat → Nat}
    {d0 d1 : List (BitVec 32)} (hd : Ranked n key d0 d1)
    {sk0 sk1 : List Byte} (l0 : sk0.length = n) (l1 : sk1.length = n)
    (hlow : ∀ i, i < n → (sk0.getD i 0 ^^^ sk1.getD i 0).toNat < 2 ^ L) {a0 a1 b0 b1 : ComposedPerm} {x0 x1 : Mat Row}
    {ssk0 ssk1 : List Byte} (E1 : ComposedPerm.derandomizeBoth c0 c1 d0 d1 = .ok (a0, a1))
    (E2 : ComposedPerm.applyBoth a0 a1 .inverse (byteCol sk0) (byteCol sk1) = .ok (b0, b1, x0, x1))
    (E3 : colBytes x0 = .ok ssk0) (E4 : colBytes x1 = .ok ssk1) :
    ssk0.length = n ∧ ssk1.length = n ∧ ∀ i, i < n → (ssk0.getD i 0 ^^^ ssk1.getD i 0).toNat < 2 ^ L := by
  have hl := hd.list
  obtain ⟨a0', a1', ea, ca, ga⟩ := composed_derandomize_ok hs.comp hn0 hd.1 hd.2.1 (by rw [hl]; exact rankList_perm n key)
    (by have := hs.room1; omega)
  rw [hl] at ga
  rw [ea] at E1
  injection E1 with E1
  injection E1 with ha hb
  subst ha hb
  obtain ⟨b0', b1', y0, y1, eb, cb, pb0, pb1, sy0, sy1, xy⟩ := composed_applyBoth_ok ca hn0 (op := .inverse)
    (x0 := byteCol sk0) (x1 := byteCol sk1) (byteCol_shape l0) (byteCol_shape l1) rfl
    (by have := hs.room0; simp only [byteCol]; omega) (by have := hs.room1; simp only [byteCol]; omega)
  have hc1 : (byteCol sk0).cols = 1 := rfl
  rw [hc1] at eb cb sy0 sy1
  rw [eb] at E2
  injection E2 with E2
  injection E2 with _ E2
  injection E2 with _ E2
  injection E2 with ex0 ex1
  subst ex0 ex1
  rw [colBytes_ok sy0] at E3
  rw [colBytes_ok sy1] at E4
  injection E3 with E3
  injection E4 with E4
  subst E3 E4
  refine ⟨by simp, by simp, fun i hi => ?_⟩
  have hperm := rankList_perm n key
  obtain ⟨a, ha, ea⟩ : ∃ a, a < n ∧ rank n key a = i := by
    have : i ∈ (Finset.range n).image (rank n key) := by rw [rank_image]; exact Finset.mem_range.mpr hi
    obtain ⟨a, ha, e⟩ := Finset.mem_image.mp this
    exact ⟨a, Finset.mem_range.mp ha, e⟩
  subst ea
  have e2 : ∀ y : List Row, ((List.range n).map fun i => byteAt y i 0).getD (rank n key a) 0 = byteAt y (rank n key a) 0 := by
    intro y
    simp [List.getD_eq_getElem?_getD, hi]
  simp only [e2]
  have e3 : byteAt y0 (rank n key a) 0 ^^^ byteAt y1 (rank n key a) 0 = sk0.getD a 0 ^^^ sk1.getD a 0 := by
    rw [← byteAt_xm sy0 sy1 hi (by omega), xy, ga]
    have := byteAt_permRows_inverse (n := n) (c := 1) (pi := (List.range n).map (rank n key))
      (x := xm (byteCol sk0).rows (byteCol sk1).rows) hperm (by simp) (xm_shape (byteCol_shape l0) (byteCol_shape l1))
      (i := a) (j := 0) ha
    have e4 : ((List.range n).map (rank n key)).getD a 0 = rank n key a := by simp [List.getD_eq_getElem?_getD, ha]
    rw [e4] at this
    rw [this, byteAt_xm (byteCol_shape l0) (byteCol_shape l1) ha (by omega), byteCol_at (by omega), byteCol_at (by omega)]
  rw [e3]
  exact hlow a ha

theorem genPermLoopD_eq {n L : Nat} (hn0 : 0 < n) (hn : n ≤ 2 ^ 32) (h1 : 1 ≤ L) (h8 : L ≤ 8) {k0 k1 : Mat Row}
    (s0 : Shape n k0.cols k0.rows) (s1 : Shape n k0.cols k1.rows) (hc : k1.cols = k0.cols) :
    ∀ (left : Nat) (rs : List (ComposedPerm × ComposedPerm × RoundRnd)) (kIdx : Nat) (d0 d1 : List (BitVec 32)),
      left ≤ rs.length → (∀ s ∈ rs, ∃ W0 o0 W1 o1, StepOk n L W0 o0 W1 o1 s) →
      (∀ t, t < left → kIdx + t * L < 8 * k0.cols) →
      Ranked n (fun a => rowKey (xm k0.rows k1.rows) a % 2 ^ kIdx) d0 d1 →
      genPermLoopD n L k0 k1 left rs kIdx d0 d1 = genPermLoop n L k0 k1 left rs kIdx d0 d1 := by
  intro left
  induction left with
  | zero => intro rs kIdx d0 d1 _ _ _ _; rfl
  | succ left ih =>
    intro rs kIdx d0 d1 hl hrs hk hd
    match rs, hl with
    | (c0, c1, r) :: rs, hl =>
      obtain ⟨W0, o0, W1, o1, hs⟩ := hrs _ List.mem_cons_self
      have hk0 : kIdx < 8 * k0.cols := by have := hk 0 (by omega); omega
      have hv : ∀ i, i < n → ((digits kIdx L k0).getD i 0 ^^^ (digits kIdx L k1).getD i 0).toNat =
          rowKey (xm k0.rows k1.rows) i / 2 ^ kIdx % 2 ^ L := fun i hi => digits_val s0 s1 hc hk0 h1 h8 hi
      have hlow : ∀ i, i < n → ((digits kIdx L k0).getD i 0 ^^^ (digits kIdx L k1).getD i 0).toNat < 2 ^ L :=
        fun i hi => by rw [hv i hi]; exact Nat.mod_lt _ (Nat.two_pow_pos _)
      have dl0 : (digits kIdx L k0).length = n := by rw [digits_length, s0.1]
      have dl1 : (digits kIdx L k1).length = n := by rw [digits_length, s1.1]
      obtain ⟨a0, a1, b0, b1, x0, x1, ssk0, ssk1, p0, p1, e0, e1, f0, f1, E1, E2, E3, E4, E5, E6, hR⟩ :=
        step_ok hn0 hn h1 h8 hs (M := 2 ^ kIdx) (fun a _ => Nat.mod_lt _ (Nat.two_pow_pos _)) hd
          (sk0 := digits kIdx L k0) (sk1 := digits kIdx L k1) dl0 dl1 hlow
      obtain ⟨ls0, ls1, hsl⟩ := step_digits hn0 hs hd dl0 dl1 hlow E1 E2 E3 E4
      have hR' : Ranked n (fun a => rowKey (xm k0.rows k1.rows) a % 2 ^ (kIdx + L)) e0 e1 := by
        refine ⟨hR.1, hR.2.1, fun i hi => ?_⟩
        rw [hR.2.2 i hi]
        apply rank_congr _ hi
        intro a ha
        rw [hv a ha, Nat.pow_add, Nat.mod_mul]
      have h := ih rs (kIdx + L) e0 e1 (by simpa using hl) (fun s hs => hrs s (List.mem_cons_of_mem _ hs))
        (fun t ht => by have := hk (t + 1) (by omega); rw [Nat.add_mul] at this; omega) hR'
      have eD := genBitPermD_eq h1 h8 hn ls0 ls1 hs.rnd
      rw [if_pos hsl] at eD
      have q0 := extract_ok s0 hn0 hk0 h1 h8
      have q1 := extract_ok (k := k1) (by rw [hc]; exact s1) hn0 (by rw [hc]; exact hk0) h1 h8
      have qD0 := extractD_ok s0 hn0 hk0 h1 h8
      have qD1 := extractD_ok (k := k1) (by rw [hc]; exact s1) hn0 (by rw [hc]; exact hk0) h1 h8
      rw [genPermLoopD, genPermLoop]
      simp only [q0, q1, qD0, qD1, ok_bind, E1, E2, E3, E4, eD, E5, E6, h]

theorem genPermD_eq {gt : Nat → Row → Row → Bool} (hgt : GtOk gt) {n bits L : Nat} (hn0 : 0 < n) (hn : n ≤ 2 ^ 32)
    (hb : 0 < bits) (h1 : 1 ≤ L) (h8 : L ≤ 8)
    {k0 k1 : BinMatrix} (b0 : k0.bits = bits) (b1 : k1.bits = bits) (c0 : bits ≤ 8 * k0.cols) (hc : k1.cols = k0.cols)
    (s0 : Shape n k0.cols k0.rows) (s1 : Shape n k0.cols k1.rows)
    (hpad : ∀ i, i < n → rowKey (xm k0.rows k1.rows) i < 2 ^ bits)
    {first : RoundRnd} (hf : first.Ok n L) {rest : List (ComposedPerm × ComposedPerm × RoundRnd)}
    (hl : divCeil bits L ≤ rest.length + 1) (hr : ∀ s ∈ rest, ∃ W0 o0 W1 o1, StepOk n L W0 o0 W1 o1 s) :
    genPermD gt n bits L k0 k1 first rest = genPerm n bits L k0 k1 first rest := by
  have s0' : Shape n k0.mat.cols k0.mat.rows := s0
  have s1' : Shape n k0.mat.cols k1.mat.rows := s1
  have hcm : k1.mat.cols = k0.mat.cols := hc
  have hcm0 : k0.mat.cols = k0.cols := rfl
  have hk0 : 0 < 8 * k0.mat.cols := by rw [hcm0]; omega
  have hR : 0 < divCeil bits L := by unfold divCeil; apply Nat.div_pos <;> omega
  have hRL : (divCeil bits L - 1) * L < bits := by
    have : divCeil bits L * L ≤ bits + L - 1 := Nat.div_mul_le_self _ _
    rw [Nat.sub_mul]; omega
  have hv : ∀ i, i < n → ((digits 0 L k0.mat).getD i 0 ^^^ (digits 0 L k1.mat).getD i 0).toNat =
      rowKey (xm k0.mat.rows k1.mat.rows) i / 2 ^ 0 % 2 ^ L := fun i hi => digits_val s0' s1' hcm hk0 h1 h8 hi
  obtain ⟨d0, d1, ed, l0, l1, hd⟩ := genBitPerm_ok h1 h8 hn (k0 := digits 0 L k0.mat) (k1 := digits 0 L k1.mat)
    (by rw [digits_length]; exact s0.1) (by rw [digits_length]; exact s1.1) hf
  have hd' : Ranked n (fun a => rowKey (xm k0.mat.rows k1.mat.rows) a % 2 ^ L) d0 d1 := by
    refine ⟨l0, l1, fun i hi => ?_⟩
    rw [hd i hi]
    apply rank_congr _ hi
    intro a ha
    simp only [hv a ha, Nat.pow_zero, Nat.div_one, Nat.mod_mod]
  have eD := genBitPermD_eq h1 h8 hn (k0 := digits 0 L k0.mat) (k1 := digits 0 L k1.mat)
    (by rw [digits_length]; exact s0.1) (by rw [digits_length]; exact s1.1) hf
  rw [if_pos (fun i hi => by rw [hv i hi]; exact Nat.mod_lt _ (Nat.two_pow_pos _))] at eD
  have ee := genPermLoopD_eq hn0 hn h1 h8 s0' s1' hcm (divCeil bits L - 1) rest L d0 d1 (by omega) hr
    (fun t ht => by
      have : (t + 1) * L ≤ (divCeil bits L - 1) * L := Nat.mul_le_mul_right _ ht
      rw [Nat.add_mul] at this
      rw [hcm0]; omega) hd'
  obtain ⟨ps, ep, _⟩ := debugGenPerm_ok hgt hn0 hb h1 h8 (kk := ⟨k0.cols, List.zipWith xorRow k0.rows k1.rows⟩)
    (xm_shape s0 s1) c0 hpad
  unfold genPermD genPerm checkKey
  simp only [s0.1, s1.1, b0, b1, bne_self_eq_false, throwIf_false, ok_bind]
  rw [ep, ok_bind, extract_ok s0' hn0 hk0 h1 h8, ok_bind, extract_ok (k := k1.mat) (by rw [hcm]; exact s1') hn0 (by rw [hcm]; exact hk0) h1 h8,
    ok_bind, extractD_ok s0' hn0 hk0 h1 h8, ok_bind, extractD_ok (k := k1.mat) (by rw [hcm]; exact s1') hn0 (by rw [hcm]; exact hk0) h1 h8,
    ok_bind, if_neg (by omega), if_neg (by omega), eD, ed, ok_bind, ok_bind]
  exact ee

end Radix
end SecJoin
