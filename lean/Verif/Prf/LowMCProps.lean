import Verif.Prf.LowMCElim
/-!
# C55: LowMC decryption undoes encryption; rank and inverse of matrices

The specification is the theory of matrices over the field of two elements in Mathlib: `Matrix.rank`, `IsUnit`, `⁻¹`. `vec` reads a
block as a vector (bit `j` is entry `j`), `toMat m` reads a list of rows as a matrix with `m` rows.
-/
namespace SecJoin
namespace LowMC

theorem mapRes_get {f : α → Res β} : ∀ {l : List α} {r : List β}, mapRes f l = .ok r →
    r.length = l.length ∧ ∀ i (h : i < l.length) (h' : i < r.length), f l[i] = .ok r[i]
  | [], r, h => by
    simp only [mapRes] at h
    injection h with h; subst h
    exact ⟨rfl, fun i h => absurd h (by simp)⟩
  | a :: t, r, h => by
    simp only [mapRes] at h
    cases hf : f a with
    | error e => rw [hf, err_bind] at h; exact absurd h (by simp)
    | ok b =>
      rw [hf, ok_bind] at h
      cases ht : mapRes f t with
      | error e => rw [ht, err_bind] at h; exact absurd h (by simp)
      | ok q =>
        rw [ht, ok_bind] at h
        injection h with h; subst h
        obtain ⟨h1, h2⟩ := mapRes_get ht
        refine ⟨by simp [h1], fun i hi hi' => ?_⟩
        cases i with
        | zero => exact hf
        | succ i => exact h2 i (by simpa using hi) (by simpa using hi')

theorem bind_ok {x : Res α} {f : α → Res β} {b : β} (h : (x >>= f) = .ok b) : ∃ a, x = .ok a ∧ f a = .ok b := by
  cases x with
  | error e => exact absurd h (by simp)
  | ok a => exact ⟨a, rfl, h⟩

/-! ## Rank and inverse -/

/-- C55: the rank routine returns the rank of every matrix with at least as many rows as columns. -/
theorem C55_rank {M : Mtx n} (hn : 0 < n) (hm : n ≤ M.length) : rankOf M = .ok (toMat M.length M).rank :=
  rankOf_ok hn hm rfl

/-- C55: a square matrix is found to have full rank exactly if it is invertible. -/
theorem C55_full {M : Mtx n} (hn : 0 < n) (hm : M.length = n) : rankOf M = .ok n ↔ IsUnit (toMat n M) := by
  rw [rankOf_ok hn (le_refl n) hm, ← rank_unit]
  constructor
  · intro h; injection h
  · intro h; rw [h]

/-- C55: the inversion routine returns the inverse of every invertible matrix. -/
theorem C55_invert {M : Mtx n} (hn : 0 < n) (hm : M.length = n) (hu : IsUnit (toMat n M)) :
    ∃ inv, invert M = .ok inv ∧ inv.length = n ∧ toMat n inv = (toMat n M)⁻¹ := invert_ok hn hm hu

/-- C55: the multiplication routine is the product of the matrix and the block as a vector. -/
theorem C55_mul {n k : Nat} (M : Mtx k) (hM : n ≤ M.length) (m : BitVec k) :
    ∃ t, mul n M m = .ok t ∧ vec t = (toMat n M).mulVec (vec m) := mul_ok M hM m

theorem mul_inverse {M inv : Mtx n} (hm : M.length = n) (hi : inv.length = n) (hu : IsUnit (toMat n M)) (h : toMat n inv = (toMat n M)⁻¹)
    (x : BitVec n) : ∃ t, mul n M x = .ok t ∧ mul n inv t = .ok x := by
  obtain ⟨t, h1, h2⟩ := mul_ok (n := n) M (by omega) x
  obtain ⟨u, h3, h4⟩ := mul_ok (n := n) inv (by omega) t
  refine ⟨t, h1, ?_⟩
  rw [h3]
  congr 1
  apply vec_inj
  rw [h4, h2, h, Matrix.mulVec_mulVec, Matrix.nonsing_inv_mul _ ((Matrix.isUnit_iff_isUnit_det _).mp hu), Matrix.one_mulVec]

/-! ## The instance -/

theorem loadMatrix_length {n k : Nat} {s : List (BitVec 8)} {c : BitVec 8} {M : Mtx k} (h : loadMatrix n k s c = .ok M) : M.length = n := by
  unfold loadMatrix at h
  obtain ⟨⟨mat, s', c'⟩, h1, h2⟩ := bind_ok h
  injection h2 with h2
  subst h2
  have key : ∀ (m : Nat) (M0 : Mtx k) (s0 : List (BitVec 8)) (c0 : BitVec 8) (M1 : Mtx k) (s1 : List (BitVec 8)) (c1 : BitVec 8),
      (List.range m).foldlM (fun (st : Mtx k × List (BitVec 8) × BitVec 8) _ => do
        let (mat, s, c) := st
        let (row, s, c) ← loadRow k s c
        let (s, c) := read1 s c
        throwIf (c != 10#8)
        .ok (mat ++ [row], s, c)) (M0, s0, c0) = .ok (M1, s1, c1) → M1.length = M0.length + m := by
    intro m
    induction m with
    | zero =>
      intro M0 s0 c0 M1 s1 c1 h
      have h : (Except.ok (M0, s0, c0) : Res _) = .ok (M1, s1, c1) := h
      injection h with h; injection h with h _; rw [h]; rfl
    | succ m ih =>
      intro M0 s0 c0 M1 s1 c1 h
      rw [List.range_succ, List.foldlM_append] at h
      obtain ⟨⟨Ma, sa, ca⟩, ha, hb⟩ := bind_ok h
      have := ih _ _ _ _ _ _ ha
      simp only [List.foldlM_cons, List.foldlM_nil] at hb
      obtain ⟨⟨Mb, sb, cb⟩, hc, hd⟩ := bind_ok hb
      obtain ⟨⟨row, sc, cc⟩, he, hf⟩ := bind_ok hc
      obtain ⟨_, hg, hh⟩ := bind_ok hf
      injection hh with hh; injection hh with hh _
      have hd : (Except.ok (Mb, sb, cb) : Res _) = .ok (M1, s1, c1) := hd
      injection hd with hd; injection hd with hd _
      subst hd; subst hh
      simp [this]; omega
  simpa using key _ _ _ _ _ _ _ h1

theorem drawUntil_ok {n k : Nat} {good : Nat → Bool} : ∀ {ds : List (Nat → BitVec k)} {M : Mtx k}, drawUntil n good ds = .ok M →
    M.length = n ∧ ∃ r, rankOf M = .ok r ∧ good r = true
  | [], M, h => absurd h (by simp [drawUntil])
  | d :: ds, M, h => by
    unfold drawUntil at h
    obtain ⟨r, h1, h2⟩ := bind_ok h
    by_cases hg : good r = true
    · rw [if_pos hg] at h2
      injection h2 with h2; subst h2
      exact ⟨by simp, r, h1, hg⟩
    · rw [if_neg hg] at h2
      exact drawUntil_ok h2

theorem oneMatrix_ok {n k : Nat} {inv : Bool} {file : Option (List (BitVec 8))} {drawn : List (Nat → BitVec k)} {junk : BitVec 8}
    {good : Nat → Bool} {M : Mtx k} (h : oneMatrix n k inv file drawn junk good = .ok M) :
    M.length = n ∧ (inv = true → ∃ r, rankOf M = .ok r ∧ good r = true) := by
  unfold oneMatrix at h
  cases inv with
  | false =>
    simp only [beq_self_eq_true, if_true] at h
    cases drawn with
    | nil => exact absurd h (by simp)
    | cons d ds => injection h with h; subst h; exact ⟨by simp, by simp⟩
  | true =>
    simp only [show (true == false) = false from rfl, Bool.false_eq_true, if_false] at h
    cases file with
    | none =>
      obtain ⟨h1, h2⟩ := drawUntil_ok h
      exact ⟨h1, fun _ => h2⟩
    | some s =>
      obtain ⟨M', h1, h2⟩ := bind_ok h
      obtain ⟨r, h3, h4⟩ := bind_ok h2
      obtain ⟨_, h5, h6⟩ := bind_ok h4
      injection h6 with h6; subst h6
      refine ⟨loadMatrix_length h1, fun _ => ⟨r, h3, ?_⟩⟩
      cases hg : good r with
      | true => rfl
      | false => rw [hg] at h5; exact absurd h5 (by simp)

/-- What the constructor guarantees. -/
structure Inst.Ok (c : Inst n k) : Prop where
  boxes : 3 * c.boxes ≤ n
  lin : c.lin.length = c.rounds
  rows : ∀ M ∈ c.lin, M.length = n
  consts : c.consts.length = c.rounds
  keyMats : c.keyMats.length = c.rounds + 1
  keyRows : ∀ M ∈ c.keyMats, M.length = n
  keys : c.roundKeys.length = c.rounds + 1
  inv : c.invertable = true → c.invLin.length = c.rounds ∧ ∀ r (h : r < c.lin.length) (h' : r < c.invLin.length),
    c.invLin[r].length = n ∧ IsUnit (toMat n c.lin[r]) ∧ toMat n c.invLin[r] = (toMat n c.lin[r])⁻¹

theorem keySchedule_ok {c : Inst n k} (hk : c.keyMats.length = c.rounds + 1) (hr : ∀ M ∈ c.keyMats, M.length = n) (key : BitVec k) :
    ∃ rks : List (BitVec n), keySchedule c key = .ok { c with roundKeys := rks } ∧ rks.length = c.rounds + 1 ∧
      ∀ r (h : r < c.keyMats.length) (h' : r < rks.length), vec rks[r] = (toMat n c.keyMats[r]).mulVec (vec key) := by
  have h : ∀ r ∈ List.range (c.rounds + 1), ∃ x, (do let M ← rd c.keyMats r; mul n M key) = Except.ok x ∧
      ∀ h : r < c.keyMats.length, vec x = (toMat n c.keyMats[r]).mulVec (vec key) := by
    intro r hrr
    have hrr : r < c.keyMats.length := by rw [hk]; exact List.mem_range.mp hrr
    obtain ⟨t, h1, h2⟩ := mul_ok (n := n) c.keyMats[r] (by rw [hr _ (List.getElem_mem hrr)]) key
    exact ⟨t, by rw [rd_ok hrr, ok_bind, h1], fun _ => h2⟩
  have hm : ∃ rks, mapRes (fun r => do let M ← rd c.keyMats r; mul n M key) (List.range (c.rounds + 1)) = .ok rks := by
    have : ∀ l : List Nat, (∀ r ∈ l, ∃ x, (do let M ← rd c.keyMats r; mul n M key) = Except.ok x) →
        ∃ rks, mapRes (fun r => do let M ← rd c.keyMats r; mul n M key) l = .ok rks := by
      intro l
      induction l with
      | nil => intro _; exact ⟨[], rfl⟩
      | cons a t ih =>
        intro hl
        obtain ⟨x, hx⟩ := hl a (by simp)
        obtain ⟨y, hy⟩ := ih fun r hr => hl r (by simp [hr])
        exact ⟨x :: y, by simp only [mapRes]; rw [hx, ok_bind, hy]; rfl⟩
    exact this _ fun r hr => ⟨(h r hr).choose, (h r hr).choose_spec.1⟩
  obtain ⟨rks, hrks⟩ := hm
  obtain ⟨h1, h2⟩ := mapRes_get hrks
  rw [List.length_range] at h1
  refine ⟨rks, by unfold keySchedule; rw [hrks]; rfl, h1, fun r h3 h4 => ?_⟩
  obtain ⟨x, hx, hx'⟩ := h r (List.mem_range.mpr (by omega))
  have := h2 r (by rw [List.length_range]; omega) h4
  rw [List.getElem_range, hx] at this
  injection this with this
  rw [← this]; exact hx' h3

theorem create_ok {boxes rounds : Nat} {invertable : Bool} {src : Source n k} {key : BitVec k} {c : Inst n k} (hn : 0 < n)
    (hb : 3 * boxes ≤ n) (h : create n k boxes rounds invertable src key = .ok c) : c.Ok ∧ c.invertable = invertable ∧ c.rounds = rounds := by
  unfold create at h
  obtain ⟨lin, h1, h⟩ := bind_ok h
  obtain ⟨inv, h2, h⟩ := bind_ok h
  obtain ⟨km, h3, h⟩ := bind_ok h
  obtain ⟨l1, l2⟩ := mapRes_get h1
  obtain ⟨i1, i2⟩ := mapRes_get h2
  obtain ⟨k1, k2⟩ := mapRes_get h3
  rw [List.length_range] at l1 k1
  have hlin : ∀ r (hr : r < lin.length), lin[r].length = n ∧ (invertable = true → IsUnit (toMat n lin[r])) := by
    intro r hr
    obtain ⟨q1, q2⟩ := oneMatrix_ok (l2 r (by rw [List.length_range]; omega) hr)
    refine ⟨q1, fun hi => ?_⟩
    obtain ⟨x, q3, q4⟩ := q2 hi
    have : x = n := by simpa using q4
    subst this
    exact (C55_full hn q1).mp q3
  have hkm : ∀ r (hr : r < km.length), km[r].length = n := by
    intro r hr
    exact (oneMatrix_ok (k2 r (by rw [List.length_range]; omega) hr)).1
  have hrows : ∀ M ∈ lin, M.length = n := by
    intro M hM
    obtain ⟨r, hr, rfl⟩ := List.getElem_of_mem hM
    exact (hlin r hr).1
  have hkrows : ∀ M ∈ km, M.length = n := by
    intro M hM
    obtain ⟨r, hr, rfl⟩ := List.getElem_of_mem hM
    exact hkm r hr
  obtain ⟨rks, r1, r2, r3⟩ := keySchedule_ok (c := ⟨boxes, rounds, invertable, lin, inv, (List.range rounds).map src.const, km, []⟩)
    k1 hkrows key
  rw [r1] at h
  injection h with h
  subst h
  refine ⟨⟨hb, l1, hrows, by simp, k1, hkrows, r2, fun hi => ?_⟩, rfl, rfl⟩
  have hi : invertable = true := hi
  rw [if_pos hi] at i1
  refine ⟨by show inv.length = rounds; omega, fun r hr hr' => ?_⟩
  have hu := (hlin r hr).2 hi
  obtain ⟨iv, e1, e2, e3⟩ := invert_ok hn (hlin r hr).1 hu
  have hr2 : r < (if invertable = true then lin else []).length := by rw [if_pos hi]; exact hr
  have := i2 r hr2 hr'
  have e4 : (if invertable = true then lin else [])[r] = lin[r] := by simp [hi]
  rw [e4, e1] at this
  injection this with this
  show inv[r].length = n ∧ IsUnit (toMat n lin[r]) ∧ toMat n inv[r] = (toMat n lin[r])⁻¹
  rw [← this]
  exact ⟨e2, hu, e3⟩

theorem xor_back (s a b : BitVec n) : s ^^^ a ^^^ b ^^^ b ^^^ a = s := by
  rw [xor_self_right, xor_self_right]

theorem decrypt_encrypt {c : Inst n k} (hc : c.Ok) (hi : c.invertable = true) (msg : BitVec n) :
    ∃ ct, encrypt c msg = .ok ct ∧ decrypt c ct = .ok msg := by
  obtain ⟨hil, hinv⟩ := hc.inv hi
  have h0 : 0 < c.roundKeys.length := by rw [hc.keys]; omega
  have key : ∀ r, r ≤ c.rounds → ∀ s0 : BitVec n, ∃ s, (List.range' 1 r).foldlM (fun s r => do
      let s ← substitute sbox c.boxes s
      let M ← rd c.lin (r - 1)
      let s ← mul n M s
      let rc ← rd c.consts (r - 1)
      let rk ← rd c.roundKeys r
      .ok (s ^^^ rc ^^^ rk)) s0 = .ok s ∧ (List.range' 1 r).reverse.foldlM (fun s r => do
      let rk ← rd c.roundKeys r
      let rc ← rd c.consts (r - 1)
      let M ← rd c.invLin (r - 1)
      let s ← mul n M (s ^^^ rk ^^^ rc)
      substitute invSbox c.boxes s) s = .ok s0 := by
    intro r
    induction r with
    | zero => intro _ s0; exact ⟨s0, rfl, rfl⟩
    | succ r ih =>
      intro hr s0
      obtain ⟨s, h1, h2⟩ := ih (by omega) s0
      obtain ⟨t, t1, t2⟩ := substitute_inv s hc.boxes
      have hl : r < c.lin.length := by rw [hc.lin]; omega
      have hv : r < c.invLin.length := by omega
      have hk : r + 1 < c.roundKeys.length := by rw [hc.keys]; omega
      have hcs : r < c.consts.length := by rw [hc.consts]; omega
      obtain ⟨v1, v2, v3⟩ := hinv r hl hv
      obtain ⟨u, u1, u2⟩ := mul_inverse (hc.rows _ (List.getElem_mem hl)) v1 v2 v3 t
      refine ⟨u ^^^ c.consts[r] ^^^ c.roundKeys[r + 1], ?_, ?_⟩
      · rw [List.range'_concat, List.foldlM_append, h1, ok_bind]
        simp only [List.foldlM_cons, List.foldlM_nil]
        rw [show 1 + 1 * r = r + 1 by omega, t1, ok_bind, Nat.add_sub_cancel, rd_ok hl, ok_bind, u1, ok_bind, rd_ok hcs, ok_bind, rd_ok hk,
          ok_bind]
        rfl
      · rw [List.range'_concat, List.reverse_append]
        simp only [List.reverse_cons, List.reverse_nil, List.nil_append, List.cons_append, List.foldlM_cons]
        rw [show 1 + 1 * r = r + 1 by omega, rd_ok hk, ok_bind, Nat.add_sub_cancel, rd_ok hcs, ok_bind, rd_ok hv, ok_bind, xor_back, u2,
          ok_bind, t2, ok_bind]
        exact h2
  obtain ⟨s, h1, h2⟩ := key c.rounds (le_refl _) (msg ^^^ c.roundKeys[0])
  refine ⟨s, ?_, ?_⟩
  · unfold encrypt
    rw [rd_ok h0, ok_bind]
    exact h1
  · unfold decrypt
    rw [hi, show (true == false) = false from rfl, throwIf_false, ok_bind, h2, ok_bind, rd_ok h0, ok_bind, xor_self_right]

/-- C55: an instance set up as invertible decrypts every encrypted block, for every key, number of boxes and rounds, whatever
matrices were drawn or read from files. -/
theorem C55_decrypt {boxes rounds : Nat} {src : Source n k} {key : BitVec k} {c : Inst n k} (hn : 0 < n) (hb : 3 * boxes ≤ n)
    (h : create n k boxes rounds true src key = .ok c) (msg : BitVec n) : ∃ ct, encrypt c msg = .ok ct ∧ decrypt c ct = .ok msg := by
  obtain ⟨h1, h2, _⟩ := create_ok hn hb h
  exact decrypt_encrypt h1 h2 msg

/-- C55: the same after another key has been set, which always succeeds. -/
theorem C55_setKey {boxes rounds : Nat} {src : Source n k} {key key' : BitVec k} {c : Inst n k} (hn : 0 < n) (hb : 3 * boxes ≤ n)
    (h : create n k boxes rounds true src key = .ok c) : ∃ c', keySchedule c key' = .ok c' ∧
      ∀ msg, ∃ ct, encrypt c' msg = .ok ct ∧ decrypt c' ct = .ok msg := by
  obtain ⟨h1, h2, _⟩ := create_ok hn hb h
  obtain ⟨rks, r1, r2, _⟩ := keySchedule_ok h1.keyMats h1.keyRows key'
  refine ⟨_, r1, fun msg => decrypt_encrypt (c := { c with roundKeys := rks }) ?_ h2 msg⟩
  exact ⟨h1.boxes, h1.lin, h1.rows, h1.consts, h1.keyMats, h1.keyRows, r2, h1.inv⟩

/-- C55: an instance that was not set up as invertible refuses to decrypt. -/
theorem C55_refused {boxes rounds : Nat} {src : Source n k} {key : BitVec k} {c : Inst n k} (hn : 0 < n) (hb : 3 * boxes ≤ n)
    (h : create n k boxes rounds false src key = .ok c) (msg : BitVec n) : decrypt c msg = .error .throw := by
  obtain ⟨_, h2, _⟩ := create_ok hn hb h
  unfold decrypt
  rw [h2]; rfl

theorem drawUntil_found {n k : Nat} (hk : 0 < k) (hkn : k ≤ n) (good : Nat → Bool) : ∀ {ds : List (Nat → BitVec k)} (d : Nat → BitVec k),
    d ∈ ds → good (toMat n ((List.range n).map d)).rank = true → ∃ M, drawUntil n good ds = .ok M
  | e :: ds, d, hd, hg => by
    have hr := rankOf_ok (m := n) hk hkn (M := (List.range n).map e) (by simp)
    unfold drawUntil
    simp only []
    rw [hr, ok_bind]
    by_cases hge : good (toMat n ((List.range n).map e)).rank = true
    · rw [if_pos hge]; exact ⟨_, rfl⟩
    · rw [if_neg hge]
      rcases List.mem_cons.mp hd with rfl | hd
      · exact absurd hg hge
      · exact drawUntil_found hk hkn good d hd hg

theorem mapRes_exists {f : α → Res β} {l : List α} (h : ∀ x ∈ l, ∃ y, f x = .ok y) : ∃ r, mapRes f l = .ok r := by
  induction l with
  | nil => exact ⟨[], rfl⟩
  | cons a t ih =>
    obtain ⟨y, hy⟩ := h a (by simp)
    obtain ⟨r, hr⟩ := ih fun x hx => h x (by simp [hx])
    exact ⟨y :: r, by simp only [mapRes]; rw [hy, ok_bind, hr]; rfl⟩

/-- C55: without files and with keys not longer than blocks, setting up an invertible instance succeeds as soon as the generator yields
matrices of full rank. -/
theorem C55_create {boxes rounds : Nat} {src : Source n k} (hk : 0 < k) (hkn : k ≤ n) (key : BitVec k) (hl : ∀ r, src.linFile r = none)
    (hkf : ∀ r, src.keyFile r = none) (hd : ∀ r < rounds, ∃ d ∈ src.linDrawn r, IsUnit (toMat n ((List.range n).map d)))
    (hkd : ∀ r ≤ rounds, ∃ d ∈ src.keyDrawn r, (toMat n ((List.range n).map d)).rank = k) :
    ∃ c, create n k boxes rounds true src key = .ok c := by
  have h1 : ∃ lin, mapRes (fun r => oneMatrix n n true (src.linFile r) (src.linDrawn r) src.junk (· == n)) (List.range rounds) = .ok lin := by
    refine mapRes_exists fun r hr => ?_
    obtain ⟨d, h2, h3⟩ := hd r (List.mem_range.mp hr)
    simp only [oneMatrix, hl, show (true == false) = false from rfl, Bool.false_eq_true, if_false]
    exact drawUntil_found (by omega) (le_refl n) _ d h2 (by simp [(rank_unit _).mpr h3])
  obtain ⟨lin, h1⟩ := h1
  obtain ⟨l1, l2⟩ := mapRes_get h1
  have h2 : ∃ inv, mapRes invert lin = .ok inv := by
    refine mapRes_exists fun M hM => ?_
    obtain ⟨r, hr, rfl⟩ := List.getElem_of_mem hM
    obtain ⟨q1, q2⟩ := oneMatrix_ok (l2 r (by omega) hr)
    obtain ⟨x, q3, q4⟩ := q2 rfl
    have : x = n := by simpa using q4
    subst this
    obtain ⟨iv, e1, _⟩ := invert_ok (by omega) q1 ((C55_full (by omega) q1).mp q3)
    exact ⟨iv, e1⟩
  obtain ⟨inv, h2⟩ := h2
  have h3 : ∃ km, mapRes (fun r => oneMatrix n k true (src.keyFile r) (src.keyDrawn r) src.junk (fun x => !decide (x < min n k)))
      (List.range (rounds + 1)) = .ok km := by
    refine mapRes_exists fun r hr => ?_
    obtain ⟨d, h4, h5⟩ := hkd r (by have := List.mem_range.mp hr; omega)
    simp only [oneMatrix, hkf, show (true == false) = false from rfl, Bool.false_eq_true, if_false]
    refine drawUntil_found hk hkn _ d h4 ?_
    rw [h5]; simp
  obtain ⟨km, h3⟩ := h3
  obtain ⟨k1, k2⟩ := mapRes_get h3
  unfold create
  rw [h1, ok_bind, if_pos rfl, h2, ok_bind, h3, ok_bind]
  obtain ⟨rks, r1, _⟩ := keySchedule_ok (c := ⟨boxes, rounds, true, lin, inv, (List.range rounds).map src.const, km, []⟩)
    (by simpa using k1) (by
      intro M hM
      obtain ⟨r, hr, rfl⟩ := List.getElem_of_mem hM
      have hr : r < km.length := hr
      exact (oneMatrix_ok (k2 r (by omega) hr)).1) key
  exact ⟨_, r1⟩

/-! ## Matrices with fewer rows than columns -/

/-- The matrix with ones at the upper end of the rows: row `i` has bit `n - 1 - i`. -/
def topRows (n m : Nat) : Mtx n := (List.range m).map fun i => setBit (0 : BitVec n) (n - 1 - i) true

/-- The rank routine is wrong for matrices with fewer rows than columns, although its callers foresee keys longer than blocks: it can read
past the last row. This is what happens for every size to a matrix of full rank. -/
theorem C55_rank_ub {m n : Nat} (h0 : 0 < m) (hmn : m < n) : rankOf (topRows n m) = .error .ub := by
  have hlen : (topRows n m).length = m := by simp [topRows]
  have hget : ∀ i < m, (topRows n m).getD i 0 = setBit (0 : BitVec n) (n - 1 - i) true := by
    intro i hi
    simp [topRows, hi]
  have hbit : ∀ i < m, ∀ q, ((topRows n m).getD i 0).getLsbD q = decide (q = n - 1 - i) := by
    intro i hi q
    rw [hget i hi, getLsbD_setBit (by omega)]
    by_cases h : q = n - 1 - i <;> simp [h]
  have step : ∀ row < m, rankStep (topRows n m) row (n - (row + 1)) = .ok (topRows n m, row + 1) := by
    intro row hr
    have hb : ((topRows n m).getD row 0).getLsbD (n - (row + 1)) = true := by
      rw [hbit row hr]; simp; omega
    unfold rankStep
    rw [rd_getD (by omega), ok_bind, if_pos hb]
    obtain ⟨mat', h1, h2, h3⟩ := clear_fold (col := n - (row + 1)) (topRows n m) hlen hr (row + 1) (m - (row + 1)) (by omega) (by omega)
    unfold clearBelow
    rw [hlen, h1, ok_bind]
    have : mat' = topRows n m := by
      apply List.ext_getElem (by omega)
      intro i hi1 hi2
      have e := h3 i
      rw [if_neg (by
        rintro ⟨h4, h5⟩
        rw [hbit i (by omega)] at h5
        have := of_decide_eq_true h5
        omega)] at e
      simpa [List.getD_eq_getElem?_getD, List.getElem?_eq_getElem hi1, List.getElem?_eq_getElem hi2] using e
    rw [this]
  have loop : ∀ k row, row + k = n → row ≤ m → rankLoop (List.range' (row + 1) k) (topRows n m) row = .error .ub := by
    intro k
    induction k with
    | zero => intro row h1 h2; omega
    | succ k ih =>
      intro row h1 h2
      rw [List.range'_succ, rankLoop]
      by_cases hr : row < m
      · rw [step row hr, ok_bind]
        simp only []
        have : (row + 1 == n) = false := by simp; omega
        rw [this]
        exact ih (row + 1) (by omega) (by omega)
      · unfold rankStep
        rw [rd_ub (by omega)]; rfl
  unfold rankOf
  rw [rd_ok (by omega), ok_bind]
  exact loop n 0 (by omega) (by omega)

/-- C55: so an instance with keys longer than blocks can fail to be set up at all. -/
theorem C55_key_false {n k boxes rounds : Nat} (h0 : 0 < n) (hnk : n < k) {src : Source n k} (key : BitVec k)
    (hl : ∀ r, src.linFile r = none) (hkf : ∀ r, src.keyFile r = none)
    (hd : ∀ r < rounds, ∃ d ∈ src.linDrawn r, IsUnit (toMat n ((List.range n).map d)))
    (hkd : (src.keyDrawn 0).head? = some fun i => setBit (0 : BitVec k) (k - 1 - i) true) :
    create n k boxes rounds true src key = .error .ub := by
  have h1 : ∃ lin, mapRes (fun r => oneMatrix n n true (src.linFile r) (src.linDrawn r) src.junk (· == n)) (List.range rounds) = .ok lin := by
    refine mapRes_exists fun r hr => ?_
    obtain ⟨d, h2, h3⟩ := hd r (List.mem_range.mp hr)
    simp only [oneMatrix, hl, show (true == false) = false from rfl, Bool.false_eq_true, if_false]
    exact drawUntil_found (by omega) (le_refl n) _ d h2 (by simp [(rank_unit _).mpr h3])
  obtain ⟨lin, h1⟩ := h1
  obtain ⟨l1, l2⟩ := mapRes_get h1
  have h2 : ∃ inv, mapRes invert lin = .ok inv := by
    refine mapRes_exists fun M hM => ?_
    obtain ⟨r, hr, rfl⟩ := List.getElem_of_mem hM
    obtain ⟨q1, q2⟩ := oneMatrix_ok (l2 r (by omega) hr)
    obtain ⟨x, q3, q4⟩ := q2 rfl
    have : x = n := by simpa using q4
    subst this
    obtain ⟨iv, e1, _⟩ := invert_ok (by omega) q1 ((C55_full (by omega) q1).mp q3)
    exact ⟨iv, e1⟩
  obtain ⟨inv, h2⟩ := h2
  unfold create
  rw [h1, ok_bind, if_pos rfl, h2, ok_bind, List.range_succ_eq_map]
  simp only [mapRes, oneMatrix, hkf, show (true == false) = false from rfl, Bool.false_eq_true, if_false]
  cases hs : src.keyDrawn 0 with
  | nil => rw [hs] at hkd; simp at hkd
  | cons d ds =>
    rw [hs] at hkd
    have : d = fun i => setBit (0 : BitVec k) (k - 1 - i) true := by simpa using hkd
    subst this
    unfold drawUntil
    simp only []
    have e := C55_rank_ub h0 hnk
    unfold topRows at e
    rw [e]; rfl

/-! ## Matrices in files -/

/-- The digits of a row. -/
def digits (row : BitVec k) (j : Nat) : List (BitVec 8) := (List.range j).map fun i => if row.getLsbD i then 49#8 else 48#8

theorem digits_congr {x y : BitVec k} {j : Nat} (h : ∀ i < j, x.getLsbD i = y.getLsbD i) : digits x j = digits y j := by
  unfold digits
  refine List.map_congr_left fun i hi => ?_
  rw [h i (List.mem_range.mp hi)]

/-- The state of the loop over the digits of a row. -/
def RowSt (k : Nat) (s : List (BitVec 8)) (c : BitVec 8) (j : Nat) (st : BitVec k × List (BitVec 8) × BitVec 8) : Prop :=
  (∀ i, j ≤ i → st.1.getLsbD i = false) ∧
    ((s = digits st.1 j ++ st.2.1 ∧ (j = 0 → st.2.2 = c)) ∨ (st.2.1 = [] ∧ 0 < j)) ∧ (0 < j → st.2.2 = 48#8 ∨ st.2.2 = 49#8)

theorem loadRow_inv {k : Nat} {s : List (BitVec 8)} {c : BitVec 8} : ∀ (j : Nat) (st : BitVec k × List (BitVec 8) × BitVec 8), j ≤ k →
    (List.range j).foldlM (fun (st : BitVec k × List (BitVec 8) × BitVec 8) j =>
      let (row, s, c) := st
      let (s, c) := read1 s c
      if c == 48#8 then (.ok (setBit row j false, s, c) : Res _)
      else if c == 49#8 then .ok (setBit row j true, s, c)
      else .error .throw) (0, s, c) = .ok st → RowSt k s c j st
  | 0, st, _, h => by
    have h : (Except.ok (0, s, c) : Res (BitVec k × List (BitVec 8) × BitVec 8)) = .ok st := h
    injection h with h; subst h
    exact ⟨by simp, Or.inl ⟨by simp [digits], fun _ => rfl⟩, by omega⟩
  | j + 1, st, hj, h => by
    rw [List.range_succ, List.foldlM_append] at h
    obtain ⟨⟨row, s', c'⟩, h1, h2⟩ := bind_ok h
    obtain ⟨i1, i2, i3⟩ := loadRow_inv j _ (by omega) h1
    simp only [List.foldlM_cons, List.foldlM_nil] at h2
    obtain ⟨st', h3, h4⟩ := bind_ok h2
    have h4 : (Except.ok st' : Res _) = .ok st := h4
    injection h4 with h4
    subst h4
    have hset : ∀ v, (∀ i, j + 1 ≤ i → (setBit row j v).getLsbD i = false) ∧ digits (setBit row j v) (j + 1) = digits row j ++
        [if v then 49#8 else 48#8] := by
      intro v
      refine ⟨fun i hi => ?_, ?_⟩
      · rw [getLsbD_setBit (by omega), if_neg (by omega)]; exact i1 i (by omega)
      · have : digits (setBit row j v) (j + 1) = digits (setBit row j v) j ++ [if (setBit row j v).getLsbD j then 49#8 else 48#8] := by
          unfold digits; rw [List.range_succ, List.map_append]; rfl
        rw [this, getLsbD_setBit (by omega), if_pos rfl]
        congr 1
        exact digits_congr fun i hi => by rw [getLsbD_setBit (by omega), if_neg (by omega)]
    have fin : ∀ (t : List (BitVec 8)) (d : BitVec 8) (v : Bool), read1 s' c' = (t, d) → d = (if v then 49#8 else 48#8) →
        st' = (setBit row j v, t, d) → RowSt k s c (j + 1) st' := by
      intro t d v hrd hd hst
      subst hst
      refine ⟨(hset v).1, ?_, fun _ => by cases v <;> simp [hd]⟩
      cases s' with
      | nil =>
        have : ([], c') = (t, d) := hrd
        injection this with this _
        exact Or.inr ⟨this.symm, by omega⟩
      | cons b s'' =>
        have : (s'', b) = (t, d) := hrd
        injection this with e1 e2
        rcases i2 with ⟨e, _⟩ | ⟨e, _⟩
        · refine Or.inl ⟨?_, by omega⟩
          show s = digits (setBit row j v) (j + 1) ++ t
          have e : s = digits row j ++ b :: s'' := e
          rw [(hset v).2, e, ← e1, ← hd, e2, List.append_assoc]; rfl
        · exact absurd e (by simp)
    obtain ⟨t, d, hrd⟩ : ∃ t d, read1 s' c' = (t, d) := ⟨_, _, rfl⟩
    rw [hrd] at h3
    simp only [] at h3
    by_cases hd : d = 48#8
    · simp only [hd, beq_self_eq_true, if_true] at h3
      injection h3 with h3
      exact fin t d false hrd hd (by rw [← h3, hd])
    · by_cases hd' : d = 49#8
      · simp only [hd', beq_self_eq_true, if_true, show ((49#8 : BitVec 8) == 48#8) = false from rfl, Bool.false_eq_true, if_false] at h3
        injection h3 with h3
        exact fin t d true hrd hd' (by rw [← h3, hd'])
      · have e1 : (d == 48#8) = false := by simpa using hd
        have e2 : (d == 49#8) = false := by simpa using hd'
        rw [e1, e2] at h3
        exact absurd h3 (by simp)

theorem loadRow_digits {k : Nat} (row : BitVec k) (t : List (BitVec 8)) (c : BitVec 8) : ∀ j, j ≤ k → ∃ r : BitVec k, ∃ c',
    (List.range j).foldlM (fun (st : BitVec k × List (BitVec 8) × BitVec 8) j =>
      let (row, s, c) := st
      let (s, c) := read1 s c
      if c == 48#8 then (.ok (setBit row j false, s, c) : Res _)
      else if c == 49#8 then .ok (setBit row j true, s, c)
      else .error .throw) (0, digits row k ++ t, c) = .ok (r, (digits row k ++ t).drop j, c') ∧
    ∀ i, r.getLsbD i = (decide (i < j) && row.getLsbD i)
  | 0, _ => ⟨0, c, rfl, by simp⟩
  | j + 1, hj => by
    obtain ⟨r, c', h1, h2⟩ := loadRow_digits row t c j (by omega)
    have hl : (digits row k).length = k := by simp [digits]
    have hd : (digits row k ++ t).drop j = (if row.getLsbD j then 49#8 else 48#8) :: (digits row k ++ t).drop (j + 1) := by
      have hj' : j < (digits row k ++ t).length := by rw [List.length_append, hl]; omega
      rw [List.drop_eq_getElem_cons hj', List.getElem_append_left (by omega)]
      congr 1
      simp only [digits, List.getElem_map, List.getElem_range]
    refine ⟨setBit r j (row.getLsbD j), if row.getLsbD j then 49#8 else 48#8, ?_, ?_⟩
    · rw [List.range_succ, List.foldlM_append, h1, ok_bind]
      simp only [List.foldlM_cons, List.foldlM_nil]
      rw [hd]
      cases row.getLsbD j <;> rfl
    · intro i
      rw [getLsbD_setBit (by omega), h2]
      by_cases hi : i = j
      · subst hi; simp
      · have : i < j + 1 ↔ i < j := by omega
        simp [hi, this]

theorem loadRow_ok {k : Nat} (row : BitVec k) (t : List (BitVec 8)) (c : BitVec 8) : ∃ c', loadRow k (digits row k ++ t) c = .ok (row, t, c') := by
  obtain ⟨r, c', h1, h2⟩ := loadRow_digits row t c k (le_refl _)
  refine ⟨c', ?_⟩
  unfold loadRow
  have hr : r = row := by
    apply BitVec.eq_of_getLsbD_eq
    intro i hi
    rw [h2]; simp [hi]
  have hl : (digits row k).length = k := by simp [digits]
  rw [List.drop_left' hl, hr] at h1
  exact h1

theorem loadRow_line {k : Nat} (hk : 0 < k) {s : List (BitVec 8)} {c : BitVec 8} {row : BitVec k} {s' : List (BitVec 8)} {c' : BitVec 8}
    (h : loadRow k s c = .ok (row, s', c')) {s'' : List (BitVec 8)} (hn : read1 s' c' = (s'', 10#8)) : s = digits row k ++ [10#8] ++ s'' := by
  obtain ⟨_, h2, h3⟩ := loadRow_inv k _ (le_refl _) h
  cases s' with
  | nil =>
    have : ([], c') = (s'', 10#8) := hn
    injection this with _ e
    have h3 : c' = 48#8 ∨ c' = 49#8 := h3 hk
    rw [e] at h3
    exact absurd h3 (by decide)
  | cons b t =>
    have : (t, b) = (s'', 10#8) := hn
    injection this with e1 e2
    rcases h2 with ⟨e, _⟩ | ⟨e, _⟩
    · have e : s = digits row k ++ b :: t := e
      rw [e, e1, e2, List.append_assoc]; rfl
    · exact absurd e (by simp)

theorem writeMatrix_append (M : Mtx k) (row : BitVec k) : writeMatrix (M ++ [row]) = writeMatrix M ++ (digits row k ++ [10#8]) := by
  simp [writeMatrix, digits]

/-- C69: a file is accepted as a matrix exactly if it starts with the digits of `n` complete rows, each followed by a new line; then the
matrix is the one written there, whatever the uninitialised character `c` holds. So writing and reading a matrix gives the matrix, and a file
cut off anywhere is refused. -/
theorem C69_file {n k : Nat} (hk : 0 < k) (s : List (BitVec 8)) (c : BitVec 8) (M : Mtx k) :
    loadMatrix n k s c = .ok M ↔ M.length = n ∧ ∃ t, s = writeMatrix M ++ t := by
  have key : ∀ m (M : Mtx k), (∃ s' c', (List.range m).foldlM (fun (st : Mtx k × List (BitVec 8) × BitVec 8) _ => do
        let (mat, s, c) := st
        let (row, s, c) ← loadRow k s c
        let (s, c) := read1 s c
        throwIf (c != 10#8)
        .ok (mat ++ [row], s, c)) ([], s, c) = .ok (M, s', c') ∧ s = writeMatrix M ++ s') ↔ M.length = m ∧ ∃ t, s = writeMatrix M ++ t := by
    intro m
    induction m with
    | zero =>
      intro M
      constructor
      · rintro ⟨s', c', h, e⟩
        have h : (Except.ok (([] : Mtx k), s, c) : Res _) = .ok (M, s', c') := h
        injection h with h; injection h with h _
        exact ⟨by rw [← h]; rfl, s', e⟩
      · rintro ⟨h, t, e⟩
        have : M = [] := List.length_eq_zero_iff.mp h
        subst this
        exact ⟨s, c, rfl, by simp [writeMatrix]⟩
    | succ m ih =>
      intro M
      constructor
      · rintro ⟨s', c', h, e⟩
        refine ⟨?_, s', e⟩
        rw [List.range_succ, List.foldlM_append] at h
        obtain ⟨⟨Ma, sa, ca⟩, ha, hb⟩ := bind_ok h
        simp only [List.foldlM_cons, List.foldlM_nil] at hb
        obtain ⟨⟨Mb, sb, cb⟩, hc, hd⟩ := bind_ok hb
        obtain ⟨⟨row, sc, cc⟩, he, hf⟩ := bind_ok hc
        obtain ⟨_, hg, hh⟩ := bind_ok hf
        injection hh with hh; injection hh with hh _
        have hd : (Except.ok (Mb, sb, cb) : Res _) = .ok (M, s', c') := hd
        injection hd with hd; injection hd with hd _
        subst hd; subst hh
        have hlen : Ma.length = m := by
          have := loadMatrix_length (n := m) (k := k) (s := s) (c := c) (M := Ma) (by unfold loadMatrix; rw [ha]; rfl)
          exact this
        simp [hlen]
      · rintro ⟨h, t, e⟩
        rcases List.eq_nil_or_concat M with rfl | ⟨Ma, row, rfl⟩
        · simp at h
        · rw [List.concat_eq_append] at *
          have hl : Ma.length = m := by simpa using h
          rw [writeMatrix_append, List.append_assoc] at e
          obtain ⟨s', c', h1, e1⟩ := (ih Ma).mpr ⟨hl, _, e⟩
          have e2 : s' = digits row k ++ ([10#8] ++ t) := by
            have := e1.symm.trans e
            rw [List.append_assoc] at this
            exact List.append_cancel_left this
          obtain ⟨c'', h2⟩ := loadRow_ok row ([10#8] ++ t) c'
          refine ⟨t, 10#8, ?_, by rw [writeMatrix_append, List.append_assoc]; exact e⟩
          rw [List.range_succ, List.foldlM_append, h1, ok_bind]
          simp only [List.foldlM_cons, List.foldlM_nil]
          rw [e2, h2, ok_bind]
          rfl
  constructor
  · intro h
    have hl := loadMatrix_length h
    refine ⟨hl, ?_⟩
    have pre : ∀ m (M : Mtx k) s' c', (List.range m).foldlM (fun (st : Mtx k × List (BitVec 8) × BitVec 8) _ => do
        let (mat, s, c) := st
        let (row, s, c) ← loadRow k s c
        let (s, c) := read1 s c
        throwIf (c != 10#8)
        .ok (mat ++ [row], s, c)) ([], s, c) = .ok (M, s', c') → s = writeMatrix M ++ s' := by
      intro m
      induction m with
      | zero =>
        intro M s' c' h
        have h : (Except.ok (([] : Mtx k), s, c) : Res _) = .ok (M, s', c') := h
        injection h with h; injection h with h h'; injection h' with h' _
        rw [← h, ← h']; rfl
      | succ m ih =>
        intro M s' c' h
        rw [List.range_succ, List.foldlM_append] at h
        obtain ⟨⟨Ma, sa, ca⟩, ha, hb⟩ := bind_ok h
        simp only [List.foldlM_cons, List.foldlM_nil] at hb
        obtain ⟨⟨Mb, sb, cb⟩, hc, hd⟩ := bind_ok hb
        obtain ⟨⟨row, sc, cc⟩, he, hf⟩ := bind_ok hc
        obtain ⟨_, hg, hh⟩ := bind_ok hf
        have hd : (Except.ok (Mb, sb, cb) : Res _) = .ok (M, s', c') := hd
        injection hd with hd; injection hd with hd hd'; injection hd' with hd' _
        injection hh with hh; injection hh with hh hh'; injection hh' with hh' _
        have hnl : (read1 sc cc).2 = 10#8 := by
          by_cases h10 : (read1 sc cc).2 = 10#8
          · exact h10
          · rw [throwIf_ne h10] at hg; exact absurd hg (by simp)
        have := loadRow_line hk he (s'' := (read1 sc cc).1) (by rw [← hnl])
        rw [ih _ _ _ ha, this, ← hd, ← hh, writeMatrix_append, ← hd', ← hh', ← List.append_assoc, ← List.append_assoc]
    unfold loadMatrix at h
    obtain ⟨⟨Ma, sa, ca⟩, h1, h2⟩ := bind_ok h
    injection h2 with h2; subst h2
    exact ⟨sa, pre _ _ _ _ h1⟩
  · rintro ⟨hl, t, e⟩
    obtain ⟨s', c', h1, _⟩ := (key n M).mpr ⟨hl, t, e⟩
    unfold loadMatrix
    rw [h1]; rfl

/-! ## The hypotheses can be met -/

/-- Blocks of four bits and keys of three; the first matrix drawn is singular and skipped, the second linear layer comes from a file. -/
def exSrc : Source 4 3 where
  linFile := fun r => if r = 1 then some (writeMatrix [3#4, 6#4, 12#4, 8#4]) else none
  linDrawn := fun _ => [fun _ => 5#4, fun i => [7#4, 14#4, 3#4, 11#4].getD i 0]
  keyFile := fun _ => none
  keyDrawn := fun _ => [fun _ => 0, fun i => [1#3, 2#3, 7#3, 6#3].getD i 0]
  const := fun r => if r = 0 then 9#4 else 6#4
  junk := 0

def exInst : Inst 4 3 where
  boxes := 1
  rounds := 2
  invertable := true
  lin := [[7#4, 14#4, 3#4, 11#4], [3#4, 6#4, 12#4, 8#4]]
  invLin := [[15#4, 11#4, 5#4, 12#4], [15#4, 14#4, 12#4, 8#4]]
  consts := [9#4, 6#4]
  keyMats := [[1#3, 2#3, 7#3, 6#3], [1#3, 2#3, 7#3, 6#3], [1#3, 2#3, 7#3, 6#3]]
  roundKeys := [9#4, 9#4, 9#4]

theorem exInst_created : create 4 3 1 2 true exSrc 5#3 = .ok exInst := rfl

example (msg : BitVec 4) : ∃ ct, encrypt exInst msg = .ok ct ∧ decrypt exInst ct = .ok msg :=
  C55_decrypt (by decide) (by decide) exInst_created msg

example : encrypt exInst 13#4 = .ok 14#4 := rfl

example : IsUnit (toMat 4 ([7#4, 14#4, 3#4, 11#4] : Mtx 4)) := (C55_full (by decide) rfl).mp rfl

example : rankOf ([5#4, 5#4, 5#4, 5#4] : Mtx 4) = .ok 1 := rfl

example : ¬ IsUnit (toMat 4 ([5#4, 6#4, 3#4, 8#4] : Mtx 4)) := fun h => absurd ((C55_full (by decide) rfl).mpr h) (by decide)

example : rankOf (topRows 3 2) = .error .ub := C55_rank_ub (by decide) (by decide)

example : loadMatrix 2 3 (writeMatrix [5#3, 2#3] ++ [0#8]) 7#8 = .ok [5#3, 2#3] := (C69_file (by decide) _ _ _).mpr ⟨rfl, _, rfl⟩

example : ∃ src : Source 2 3, (∀ r, src.linFile r = none) ∧ (∀ r, src.keyFile r = none) ∧
    (∀ r < 1, ∃ d ∈ src.linDrawn r, IsUnit (toMat 2 ((List.range 2).map d))) ∧
    (src.keyDrawn 0).head? = some fun i => setBit (0 : BitVec 3) (3 - 1 - i) true :=
  ⟨⟨fun _ => none, fun _ => [fun i => if i = 0 then 1 else 2], fun _ => none, fun _ => [fun i => setBit 0 (3 - 1 - i) true], fun _ => 0, 0⟩,
    fun _ => rfl, fun _ => rfl, fun _ _ => ⟨_, List.mem_singleton.mpr rfl, (C55_full (by decide) rfl).mp rfl⟩, rfl⟩

end LowMC
end SecJoin
