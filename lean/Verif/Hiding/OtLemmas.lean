import Verif.Hiding.Ot
import Verif.Sort.RadixSum
import Mathlib.Logic.ExistsUnique
/-!
# Lemmas on the transcripts of the OT-based steps
-/
namespace SecJoin
namespace Radix

/-! ## Exactly one list of batches -/

theorem list_unique {α β γ : Type} {f : α → β} {g g' : Nat → α → γ} (h : ∀ k o, ∃! o', f o' = f o ∧ g' k o' = g k o) (l : List α) :
    ∀ off, ∃! l' : List α, l'.map f = l.map f ∧ l'.mapIdx (fun k => g' (off + k)) = l.mapIdx fun k => g (off + k) := by
  induction l with
  | nil =>
    intro off
    refine ⟨[], ⟨rfl, rfl⟩, ?_⟩
    rintro l' ⟨e, -⟩
    simpa using e
  | cons o l ih =>
    intro off
    obtain ⟨o', ⟨p1, p2⟩, pu⟩ := h off o
    obtain ⟨l', ⟨q1, q2⟩, qu⟩ := ih (off + 1)
    have sh : ∀ (G : Nat → α → γ) (m : List α), m.mapIdx (fun k => G (off + (k + 1))) = m.mapIdx fun k => G (off + 1 + k) := by
      intro G m
      congr 1
      funext k
      rw [show off + (k + 1) = off + 1 + k by omega]
    refine ⟨o' :: l', ⟨by simp [p1, q1], ?_⟩, ?_⟩
    · rw [List.mapIdx_cons, List.mapIdx_cons, sh, sh, q2]
      simp [p2]
    · rintro l2 ⟨e1, e2⟩
      cases l2 with
      | nil => simp at e1
      | cons a l2 =>
        simp only [List.map_cons, List.cons.injEq] at e1
        rw [List.mapIdx_cons, List.mapIdx_cons, sh, sh, List.cons.injEq] at e2
        rw [pu a ⟨e1.1, by simpa using e2.1⟩, qu l2 ⟨e1.2, e2.2⟩]

theorem reshape {α : Type} : ∀ (bs : List (List α)) (v : List α), v.length = bs.flatten.length →
    ∃ bs' : List (List α), bs'.map List.length = bs.map List.length ∧ bs'.flatten = v
  | [], v, h => ⟨[], rfl, (List.eq_nil_of_length_eq_zero h).symm⟩
  | b :: bs, v, h => by
    have h : v.length = b.length + bs.flatten.length := by rw [h, List.flatten_cons, List.length_append]
    obtain ⟨bs', e1, e2⟩ := reshape bs (v.drop b.length) (by rw [List.length_drop]; omega)
    refine ⟨v.take b.length :: bs', ?_, ?_⟩
    · rw [List.map_cons, List.map_cons, e1, List.length_take, Nat.min_eq_left (by omega)]
    · rw [List.flatten_cons, e2, List.take_append_drop]

theorem map_flatten_eq {α β : Type} {f : α → β} {bs bs' : List (List α)} :
    bs'.map (List.map f) = bs.map (List.map f) ↔ bs'.map List.length = bs.map List.length ∧ bs'.flatten.map f = bs.flatten.map f := by
  rw [List.eq_iff_flatten_eq, ← List.map_flatten, ← List.map_flatten, List.map_map, List.map_map]
  have : (List.length ∘ List.map f) = (List.length : List α → Nat) := by funext x; simp
  rw [this, and_comm]

theorem batches_unique {α β γ : Type} {f : α → β} {g g' : Nat → α → γ} (h : ∀ k o, ∃! o', f o' = f o ∧ g' k o' = g k o) (bs : List (List α)) :
    ∃! bs' : List (List α), bs'.map (List.map f) = bs.map (List.map f) ∧ bs'.flatten.mapIdx g' = bs.flatten.mapIdx g := by
  obtain ⟨l, ⟨e1, e2⟩, u⟩ := list_unique h bs.flatten 0
  simp only [Nat.zero_add] at e2 u
  obtain ⟨bs', s1, s2⟩ := reshape bs l (by have := congrArg List.length e1; rwa [List.length_map, List.length_map] at this)
  refine ⟨bs', ⟨map_flatten_eq.2 ⟨s1, by rw [s2, e1]⟩, by rw [s2, e2]⟩, ?_⟩
  rintro b2 ⟨k1, k2⟩
  obtain ⟨k0, k1⟩ := map_flatten_eq.1 k1
  exact List.eq_iff_flatten_eq.2 ⟨by rw [s2, u b2.flatten ⟨k1, k2⟩], by rw [k0, s1]⟩

/-! ## One position -/

/-- The choice bit that gives the same difference. -/
theorem choice_unique (o : Ot) (x x' : Bool) : ∃! o' : Ot, (o'.m0, o'.m1) = (o.m0, o.m1) ∧ (x' ^^ o'.c) = (x ^^ o.c) := by
  obtain ⟨m0, m1, c⟩ := o
  refine ⟨⟨m0, m1, x' ^^ (x ^^ c)⟩, ⟨rfl, by cases x <;> cases x' <;> cases c <;> rfl⟩, ?_⟩
  rintro ⟨n0, n1, c'⟩ ⟨e, k⟩
  simp only [Prod.mk.injEq] at e
  obtain ⟨rfl, rfl⟩ := e
  simp only at k
  congr 1
  revert k
  cases x <;> cases x' <;> cases c <;> cases c' <;> simp

/-- The message that was not chosen. -/
theorem other_unique (o : Ot) (e e' : BitVec 32) (s : Bool) :
    ∃! o' : Ot, (o'.c, o'.got) = (o.c, o.got) ∧ o'.msg (s ^^ o'.c) - o'.msg (!(s ^^ o'.c)) + e' = o.msg (s ^^ o.c) - o.msg (!(s ^^ o.c)) + e := by
  obtain ⟨m0, m1, c⟩ := o
  have key : ∀ (a b d d' : BitVec 32), ∃! z : BitVec 32, a - z + d' = a - b + d := by
    intro a b d d'
    refine ⟨b + d' - d, by ring, ?_⟩
    intro z hz
    have : z = a + d' - (a - z + d') := by ring
    rw [this, hz]; ring
  have key' : ∀ (a b d d' : BitVec 32), ∃! z : BitVec 32, z - a + d' = b - a + d := by
    intro a b d d'
    refine ⟨b + d - d', by ring, ?_⟩
    intro z hz
    have : z = (z - a + d') + a - d' := by ring
    rw [this, hz]; ring
  cases c <;> cases s
  · obtain ⟨z, hz, hu⟩ := key m0 m1 e e'
    refine ⟨⟨m0, z, false⟩, ⟨rfl, hz⟩, ?_⟩
    rintro ⟨n0, n1, c'⟩ ⟨k, k2⟩
    simp only [Prod.mk.injEq, Ot.got, Ot.msg] at k
    obtain ⟨rfl, k⟩ := k
    simp only [Bool.false_eq_true, if_false] at k
    subst k
    rw [hu n1 (by simpa [Ot.msg] using k2)]
  · obtain ⟨z, hz, hu⟩ := key' m0 m1 e e'
    refine ⟨⟨m0, z, false⟩, ⟨rfl, hz⟩, ?_⟩
    rintro ⟨n0, n1, c'⟩ ⟨k, k2⟩
    simp only [Prod.mk.injEq, Ot.got, Ot.msg] at k
    obtain ⟨rfl, k⟩ := k
    simp only [Bool.false_eq_true, if_false] at k
    subst k
    rw [hu n1 (by simpa [Ot.msg] using k2)]
  · obtain ⟨z, hz, hu⟩ := key m1 m0 e e'
    refine ⟨⟨z, m1, true⟩, ⟨rfl, hz⟩, ?_⟩
    rintro ⟨n0, n1, c'⟩ ⟨k, k2⟩
    simp only [Prod.mk.injEq, Ot.got, Ot.msg] at k
    obtain ⟨rfl, k⟩ := k
    simp only [if_true] at k
    subst k
    rw [hu n0 (by simpa [Ot.msg] using k2)]
  · obtain ⟨z, hz, hu⟩ := key' m1 m0 e e'
    refine ⟨⟨z, m1, true⟩, ⟨rfl, hz⟩, ?_⟩
    rintro ⟨n0, n1, c'⟩ ⟨k, k2⟩
    simp only [Prod.mk.injEq, Ot.got, Ot.msg] at k
    obtain ⟨rfl, k⟩ := k
    simp only [if_true] at k
    subst k
    rw [hu n0 (by simpa [Ot.msg] using k2)]

/-! ## The transcripts position by position -/

theorem hadRowView_ok {fP fQ : List Byte} {sQ : List (BitVec 32)} : ∀ (c : Nat) (ots : List Ot) (k : Nat) (p q : BitVec 32),
    c ≤ ots.length → k + c ≤ 8 * fP.length → k + c ≤ 8 * fQ.length → k + c ≤ sQ.length →
    ∃ x, hadRowView fP fQ sQ ots c k p q = .ok
      ((ots.take c).mapIdx (fun j o => o.c ^^ bitOf fP (k + j)),
       (ots.take c).mapIdx (fun j o => (hadReply o (o.c ^^ bitOf fP (k + j)) (bitOf fQ (k + j)) (sQ.getD (k + j) 0)).1), x) := by
  intro c
  induction c with
  | zero =>
    intro ots k p q _ _ _ _
    exact ⟨(p, q), by cases ots <;> rfl⟩
  | succ c ih =>
    intro ots k p q ho h1 h2 h3
    cases ots with
    | nil => simp at ho
    | cons o os =>
      obtain ⟨x, e⟩ := ih os (k + 1) (p + o.got + (hadReply o (o.c ^^ bitOf fP k) (bitOf fQ k) sQ[k]).1 * word (bitOf fP k))
        (q - (hadReply o (o.c ^^ bitOf fP k) (bitOf fQ k) sQ[k]).2) (by simp at ho; omega) (by omega) (by omega) (by omega)
      refine ⟨x, ?_⟩
      rw [hadRowView, flatBit_ok (by omega), ok_bind, flatBit_ok (by omega), ok_bind, rd_ok (by omega : k < sQ.length), ok_bind]
      simp only [e, ok_bind]
      rw [List.take_succ_cons, List.mapIdx_cons, List.mapIdx_cons]
      have e0 : sQ.getD k 0 = sQ[k] := by rw [List.getD_eq_getElem?_getD, List.getElem?_eq_getElem (by omega)]; rfl
      simp only [Nat.add_zero, e0]
      simp only [Nat.add_assoc, Nat.add_comm 1]

theorem mapIdx_append_off {α β : Type} (g : Nat → α → β) (a b : List α) (off : Nat) :
    (a ++ b).mapIdx (fun j => g (off + j)) = a.mapIdx (fun j => g (off + j)) ++ b.mapIdx fun j => g (off + a.length + j) := by
  rw [List.mapIdx_append]
  congr 2
  funext j
  rw [show off + (j + a.length) = off + a.length + j by omega]

theorem hadRowsView_ok {fP fQ : List Byte} {sQ : List (BitVec 32)} {cols n : Nat}
    (h1 : n * cols ≤ 8 * fP.length) (h2 : n * cols ≤ 8 * fQ.length) (h3 : n * cols ≤ sQ.length) :
    ∀ (m : Nat) (ots : List Ot) (i : Nat), i + m ≤ n → ots.length = m * cols →
    ∃ x, hadRowsView fP fQ sQ cols ots i m = .ok
      (ots.mapIdx (fun j o => o.c ^^ bitOf fP (i * cols + j)),
       ots.mapIdx (fun j o => (hadReply o (o.c ^^ bitOf fP (i * cols + j)) (bitOf fQ (i * cols + j)) (sQ.getD (i * cols + j) 0)).1), x) := by
  intro m
  induction m with
  | zero =>
    intro ots i _ ho
    have : ots = [] := by simpa using ho
    subst this
    exact ⟨[], rfl⟩
  | succ m ih =>
    intro ots i hi ho
    have hc : (i + 1) * cols ≤ n * cols := Nat.mul_le_mul_right _ (by omega)
    rw [Nat.add_mul, Nat.one_mul] at hc
    rw [Nat.add_mul, Nat.one_mul] at ho
    obtain ⟨x, e⟩ := hadRowView_ok (fP := fP) (fQ := fQ) (sQ := sQ) cols ots (i * cols) 0 0 (by omega) (by omega) (by omega) (by omega)
    obtain ⟨y, e2⟩ := ih (ots.drop cols) (i + 1) (by omega) (by rw [List.length_drop]; omega)
    refine ⟨x :: y, ?_⟩
    rw [hadRowsView, e, ok_bind]
    obtain ⟨x1, x2⟩ := x
    simp only [e2, ok_bind]
    have lt : (ots.take cols).length = cols := by rw [List.length_take]; omega
    have ap : ∀ {β : Type} (g : Nat → Ot → β), (ots.take cols).mapIdx (fun j => g (i * cols + j)) ++ (ots.drop cols).mapIdx (fun j => g ((i + 1) * cols + j)) =
        ots.mapIdx fun j => g (i * cols + j) := by
      intro β g
      have := mapIdx_append_off g (ots.take cols) (ots.drop cols) (i * cols)
      rw [List.take_append_drop, lt] at this
      rw [this, Nat.add_mul, Nat.one_mul]
    rw [ap fun k o => o.c ^^ bitOf fP k, ap fun k o => (hadReply o (o.c ^^ bitOf fP k) (bitOf fQ k) (sQ.getD k 0)).1]

theorem hadView_ok {fP fQ : List Byte} {sQ : List (BitVec 32)} {cols n : Nat} (hc : 0 < cols)
    (h1 : n * cols ≤ 8 * fP.length) (h2 : n * cols ≤ 8 * fQ.length) (h3 : n * cols ≤ sQ.length) :
    ∀ (bs : List (List Ot)) (i : Nat), (∀ b ∈ bs, b.length % cols = 0) → i ≤ n → i * cols + (bs.map List.length).sum = n * cols →
    ∃ x, hadView fP fQ sQ n cols bs i = .ok
      (bs.flatten.mapIdx (fun j o => o.c ^^ bitOf fP (i * cols + j)),
       bs.flatten.mapIdx (fun j o => (hadReply o (o.c ^^ bitOf fP (i * cols + j)) (bitOf fQ (i * cols + j)) (sQ.getD (i * cols + j) 0)).1), x) := by
  intro bs
  induction bs with
  | nil =>
    intro i _ _ h
    have : n ≤ i := Nat.le_of_mul_le_mul_right (by rw [List.map_nil, List.sum_nil] at h; omega) hc
    exact ⟨[], by rw [hadView, if_pos this]; rfl⟩
  | cons b bs ih =>
    intro i hb hin h
    rw [List.map_cons, List.sum_cons] at h
    have hbl := hb b (by simp)
    obtain ⟨m, hm⟩ : ∃ m, b.length = m * cols := ⟨b.length / cols, by rw [Nat.mul_comm]; exact (Nat.mul_div_cancel' (Nat.dvd_of_mod_eq_zero hbl)).symm⟩
    have hdiv : b.length / cols = m := by rw [hm]; exact Nat.mul_div_cancel _ hc
    have him : i + m ≤ n := Nat.le_of_mul_le_mul_right (by rw [Nat.add_mul]; omega) hc
    obtain ⟨y, e2⟩ := ih (i + m) (fun b' h' => hb b' (by simp [h'])) him (by rw [Nat.add_mul]; omega)
    by_cases hi : n ≤ i
    · have hz : m = 0 := by omega
      have hni : n = i := by omega
      have : (bs.map List.length).sum = 0 := by rw [hni] at h; omega
      have hfl : (b :: bs).flatten = [] := by
        apply List.eq_nil_of_length_eq_zero
        rw [List.length_flatten, List.map_cons, List.sum_cons, this, hm, hz]; simp
      exact ⟨[], by rw [hadView, if_pos hi, hfl]; rfl⟩
    · obtain ⟨x, e⟩ := hadRowsView_ok h1 h2 h3 m b i him hm
      refine ⟨x ++ y, ?_⟩
      rw [hadView, if_neg hi, hbl]
      simp only [bne_self_eq_false, throwIf_false, ok_bind, hdiv]
      rw [Nat.min_eq_right (by omega), e, ok_bind]
      simp only [e2, ok_bind, List.flatten_cons]
      have ap : ∀ {β : Type} (g : Nat → Ot → β), b.mapIdx (fun j => g (i * cols + j)) ++ bs.flatten.mapIdx (fun j => g ((i + m) * cols + j)) =
          (b ++ bs.flatten).mapIdx fun j => g (i * cols + j) := by
        intro β g
        rw [mapIdx_append_off, hm, Nat.add_mul]
      rw [ap fun k o => o.c ^^ bitOf fP k, ap fun k o => (hadReply o (o.c ^^ bitOf fP k) (bitOf fQ k) (sQ.getD k 0)).1]

theorem injBatchView_ok {mask : BitVec 32} {in0 in1 : List Row} {w : Nat} {ots : List Ot} {i : Nat} {b0 b1 : Nat → Bool}
    (h0 : ∀ j, i ≤ j → j < i + ots.length → inBit in0 w j = .ok (b0 j))
    (h1 : ∀ j, i ≤ j → j < i + ots.length → inBit in1 w j = .ok (b1 j)) :
    injBatchView 32 mask in0 in1 w ots i = .ok
      (ots.mapIdx (fun j o => b1 (i + j) ^^ o.c),
       (ots.mapIdx (fun j o => (injSend mask o (b0 (i + j)) (b1 (i + j) ^^ o.c)).2)).flatMap u32Bytes,
       ots.mapIdx (fun j o => (injSend mask o (b0 (i + j)) (b1 (i + j) ^^ o.c)).1),
       ots.mapIdx (fun j o => injRecv mask o (b1 (i + j)) (injSend mask o (b0 (i + j)) (b1 (i + j) ^^ o.c)).2)) := by
  unfold injBatchView
  rw [mapRes_ok (g := b1) (by intro j hj; rw [List.mem_range'_1] at hj; exact h1 j hj.1 hj.2), ok_bind,
    mapRes_ok (g := b0) (by intro j hj; rw [List.mem_range'_1] at hj; exact h0 j hj.1 hj.2), ok_bind]
  have es : List.zipWith (fun (o : Ot) (p : Bool × Bool) => injSend mask o p.1 p.2) ots
      (((List.range' i ots.length).map b0).zip
        (List.zipWith (fun x (o : Ot) => x ^^ o.c) ((List.range' i ots.length).map b1) ots)) =
      ots.mapIdx (fun j o => injSend mask o (b0 (i + j)) (b1 (i + j) ^^ o.c)) := by
    apply List.ext_getElem?
    intro j
    by_cases h : j < ots.length
    · simp [List.getElem?_zipWith, h, List.zip]
    · simp [List.getElem?_zipWith, h]
  simp only [es]
  have em : (ots.mapIdx (fun j o => injSend mask o (b0 (i + j)) (b1 (i + j) ^^ o.c))).map Prod.snd =
      ots.mapIdx (fun j o => (injSend mask o (b0 (i + j)) (b1 (i + j) ^^ o.c)).2) := by
    apply List.ext_getElem?
    intro j
    simp [Function.comp_def]
  rw [em]
  have hu := unpack_pack (outBits := 32) (.inl rfl) (ots.mapIdx (fun j o => (injSend mask o (b0 (i + j)) (b1 (i + j) ^^ o.c)).2))
  rw [List.length_mapIdx] at hu
  rw [hu, ok_bind]
  simp only [Except.ok.injEq, Prod.mk.injEq]
  refine ⟨?_, by rw [pack, if_pos rfl], ?_, ?_⟩
  · apply List.ext_getElem?
    intro j
    by_cases h : j < ots.length
    · simp [List.getElem?_zipWith, h]
    · simp [List.getElem?_zipWith, h]
  · apply List.ext_getElem?
    intro j
    simp [Function.comp_def]
  · apply List.ext_getElem?
    intro j
    by_cases h : j < ots.length
    · simp [List.getElem?_zipWith, h, List.zip]
    · simp [List.getElem?_zipWith, h]

theorem injLoopView_ok {mask : BitVec 32} {in0 in1 : List Row} {w total : Nat} {b0 b1 : Nat → Bool}
    (h0 : ∀ j, j < total → inBit in0 w j = .ok (b0 j)) (h1 : ∀ j, j < total → inBit in1 w j = .ok (b1 j)) :
    ∀ (bs : List (List Ot)) (i : Nat), i + (bs.map List.length).sum = total →
    injLoopView 32 mask in0 in1 w total bs i = .ok
      (bs.flatten.mapIdx (fun j o => b1 (i + j) ^^ o.c),
       (bs.flatten.mapIdx (fun j o => (injSend mask o (b0 (i + j)) (b1 (i + j) ^^ o.c)).2)).flatMap u32Bytes,
       bs.flatten.mapIdx (fun j o => (injSend mask o (b0 (i + j)) (b1 (i + j) ^^ o.c)).1),
       bs.flatten.mapIdx (fun j o => injRecv mask o (b1 (i + j)) (injSend mask o (b0 (i + j)) (b1 (i + j) ^^ o.c)).2)) := by
  intro bs
  induction bs with
  | nil =>
    intro i h
    rw [List.map_nil, List.sum_nil] at h
    rw [injLoopView, if_pos (by omega)]
    rfl
  | cons b bs ih =>
    intro i h
    rw [List.map_cons, List.sum_cons] at h
    by_cases hi : total ≤ i
    · have hfl : (b :: bs).flatten = [] := by
        apply List.eq_nil_of_length_eq_zero
        rw [List.length_flatten, List.map_cons, List.sum_cons]; omega
      rw [injLoopView, if_pos hi, hfl]
      rfl
    · have hb := injBatchView_ok (mask := mask) (in0 := in0) (in1 := in1) (w := w) (ots := b) (i := i) (b0 := b0) (b1 := b1)
        (fun j _ hj => h0 j (by omega)) (fun j _ hj => h1 j (by omega))
      have ht : b.take (min b.length (total - i)) = b := by rw [Nat.min_eq_left (by omega), List.take_length]
      rw [injLoopView, if_neg hi]
      simp only [ht, hb, ok_bind, ih (i + b.length) (by omega), List.flatten_cons]
      have ap : ∀ {β : Type} (g : Nat → Ot → β), b.mapIdx (fun j => g (i + j)) ++ bs.flatten.mapIdx (fun j => g (i + b.length + j)) =
          (b ++ bs.flatten).mapIdx fun j => g (i + j) := fun g => (mapIdx_append_off g b bs.flatten i).symm
      rw [← List.flatMap_append, ap fun k o => b1 k ^^ o.c, ap fun k o => (injSend mask o (b0 k) (b1 k ^^ o.c)).2,
        ap fun k o => (injSend mask o (b0 k) (b1 k ^^ o.c)).1, ap fun k o => injRecv mask o (b1 k) (injSend mask o (b0 k) (b1 k ^^ o.c)).2]

/-- The input bit at position `k`. -/
def bitAt (m : Mat Row) (w k : Nat) : Bool := bitOf (m.rows.getD (k / w) []) (k % w)

theorem injView_ok {n w c0 c1 : Nat} {in0 in1 : Mat Row} {bs : List (List Ot)}
    (hs0 : Shape n c0 in0.rows) (hs1 : Shape n c1 in1.rows) (hc0 : in0.cols = c0) (hc1 : in1.cols = c1)
    (hw0 : w ≤ 8 * c0) (hw1 : w ≤ 8 * c1) (hb : (bs.map List.length).sum = n * w) :
    injView n w 32 in0 in1 bs = .ok
      (bs.flatten.mapIdx (fun k o => bitAt in1 w k ^^ o.c),
       (bs.flatten.mapIdx (fun k o => (injSend (BitVec.allOnes 32) o (bitAt in0 w k) (bitAt in1 w k ^^ o.c)).2)).flatMap u32Bytes,
       bs.flatten.mapIdx (fun k o => (injSend (BitVec.allOnes 32) o (bitAt in0 w k) (bitAt in1 w k ^^ o.c)).1),
       bs.flatten.mapIdx (fun k o => injRecv (BitVec.allOnes 32) o (bitAt in1 w k)
         (injSend (BitVec.allOnes 32) o (bitAt in0 w k) (bitAt in1 w k ^^ o.c)).2)) := by
  unfold injView
  rw [decide_eq_false (by omega), decide_eq_false (by omega), Bool.or_false, throwIf_false, ok_bind, hs0.1, hs1.1]
  simp only [bne_self_eq_false, Bool.or_false, throwIf_false, ok_bind, injMask, if_true]
  rw [decide_eq_false (by omega), throwIf_false, ok_bind]
  have := injLoopView_ok (mask := BitVec.allOnes 32) (b0 := bitAt in0 w) (b1 := bitAt in1 w) (fun j hj => inBit_ok hs0 hw0 hj)
    (fun j hj => inBit_ok hs1 hw1 hj) bs 0 (by omega)
  simp only [Nat.zero_add] at this
  exact this

theorem bytes_inj {u v : List (BitVec 32)} (hl : u.length = v.length) (h : u.flatMap u32Bytes = v.flatMap u32Bytes) : u = v := by
  have e1 := unpack_pack (outBits := 32) (.inl rfl) u
  have e2 := unpack_pack (outBits := 32) (.inl rfl) v
  rw [pack, if_pos rfl] at e1 e2
  rw [h, hl, e2] at e1
  exact (Except.ok.injEq _ _ ▸ e1).symm

/-- Functions of the position and of what is kept. -/
theorem mapIdx_eq {β γ : Type} {f : Ot → β} {g g' : Nat → Ot → γ} {l l' : List Ot} (h : l'.map f = l.map f)
    (hg : ∀ k (h1 : k < l.length) (h2 : k < l'.length), f l'[k] = f l[k] → g' k l'[k] = g k l[k]) : l'.mapIdx g' = l.mapIdx g := by
  have hl : l'.length = l.length := by have := congrArg List.length h; simpa using this
  apply List.ext_getElem (by simp [hl])
  intro k h1 h2
  have h1 : k < l'.length := by simpa using h1
  have h2 : k < l.length := by simpa using h2
  have : (l'.map f)[k]? = (l.map f)[k]? := by rw [h]
  simp only [List.getElem?_map, List.getElem?_eq_getElem h1, List.getElem?_eq_getElem h2, Option.map_some, Option.some.injEq] at this
  simpa using hg k h2 h1 this

theorem mapIdx_get {α γ : Type} {g g' : Nat → α → γ} {l l' : List α} (h : l'.mapIdx g' = l.mapIdx g) {k : Nat} (h1 : k < l.length)
    (h2 : k < l'.length) : g' k l'[k] = g k l[k] := by
  have := congrArg (fun x => x[k]?) h
  simpa [h1, h2] using this

theorem shape_sum {β : Type} {f : Ot → β} {bs bs' : List (List Ot)} (h : bs'.map (List.map f) = bs.map (List.map f)) :
    (bs'.map List.length).sum = (bs.map List.length).sum := by rw [(map_flatten_eq.1 h).1]

theorem mods {β : Type} {f : Ot → β} {bs bs' : List (List Ot)} {cols : Nat} (h : bs'.map (List.map f) = bs.map (List.map f))
    (hb : ∀ b ∈ bs, b.length % cols = 0) : ∀ b ∈ bs', b.length % cols = 0 := by
  intro b hm
  have h1 : b.length ∈ bs'.map List.length := List.mem_map_of_mem hm
  rw [(map_flatten_eq.1 h).1] at h1
  obtain ⟨a, ha, e⟩ := List.mem_map.1 h1
  rw [← e]
  exact hb a ha

theorem msg_eq {a b : Ot} (h : (b.m0, b.m1) = (a.m0, a.m1)) : b.msg = a.msg := by
  funext t
  simp only [Prod.mk.injEq] at h
  simp only [Ot.msg, h.1, h.2]

/-- A run of one row, taken apart. -/
theorem hadRowView_inv {fP fQ : List Byte} {sQ : List (BitVec 32)} {o : Ot} {os : List Ot} {c k : Nat} {p q p1 q1 : BitVec 32}
    {d : List Bool} {t : List (BitVec 32)} (h : hadRowView fP fQ sQ (o :: os) (c + 1) k p q = .ok (d, t, p1, q1)) :
    ∃ a b s ds ts, flatBit fP k = .ok a ∧ flatBit fQ k = .ok b ∧ rd sQ k = .ok s ∧ d = (o.c ^^ a) :: ds ∧
      t = (hadReply o (o.c ^^ a) b s).1 :: ts ∧
      hadRowView fP fQ sQ os c (k + 1) (p + o.got + (hadReply o (o.c ^^ a) b s).1 * word a) (q - (hadReply o (o.c ^^ a) b s).2) =
        .ok (ds, ts, p1, q1) := by
  unfold hadRowView at h
  cases h1 : flatBit fP k with
  | error e => rw [h1] at h; cases h
  | ok a =>
    cases h2 : flatBit fQ k with
    | error e => rw [h1, h2] at h; cases h
    | ok b =>
      cases h3 : rd sQ k with
      | error e => rw [h1, h2, h3] at h; cases h
      | ok s =>
        rw [h1, h2, h3] at h
        simp only [ok_bind] at h
        cases h4 : hadRowView fP fQ sQ os c (k + 1) (p + o.got + (hadReply o (o.c ^^ a) b s).1 * word a) (q - (hadReply o (o.c ^^ a) b s).2) with
        | error e => rw [h4] at h; cases h
        | ok v =>
          rw [h4] at h
          simp only [ok_bind, Except.ok.injEq, Prod.mk.injEq] at h
          obtain ⟨e1, e2, e3, e4⟩ := h
          refine ⟨a, b, s, v.1, v.2.1, rfl, rfl, rfl, e1.symm, e2.symm, ?_⟩
          rw [← e3, ← e4]
          exact h4

theorem hadRowView_len {fP fQ : List Byte} {sQ : List (BitVec 32)} : ∀ (c : Nat) {os : List Ot} {k : Nat} {p q p1 q1 : BitVec 32}
    {d : List Bool} {t : List (BitVec 32)}, hadRowView fP fQ sQ os c k p q = .ok (d, t, p1, q1) → d.length = c ∧ t.length = c
  | 0, os, k, p, q, p1, q1, d, t, h => by
    cases os <;> simp only [hadRowView, Except.ok.injEq, Prod.mk.injEq] at h <;> simp [← h.1, ← h.2.1]
  | c + 1, [], k, p, q, p1, q1, d, t, h => by cases h
  | c + 1, o :: os, k, p, q, p1, q1, d, t, h => by
    obtain ⟨a, b, s, ds, ts, -, -, -, ed, et, hr⟩ := hadRowView_inv h
    have := hadRowView_len c hr
    simp [ed, et, this.1, this.2]

/-- What the receiver adds up depends on what it holds and receives only. -/
theorem hadRowView_fst {fP fQ fQ' : List Byte} {sQ sQ' : List (BitVec 32)} : ∀ (c : Nat) {os os' : List Ot} {k : Nat}
    {p q q' p1 q1 p2 q2 : BitVec 32} {d d' : List Bool} {t : List (BitVec 32)},
    os'.map (fun o => (o.c, o.got)) = os.map (fun o => (o.c, o.got)) → hadRowView fP fQ sQ os c k p q = .ok (d, t, p1, q1) →
    hadRowView fP fQ' sQ' os' c k p q' = .ok (d', t, p2, q2) → p2 = p1
  | 0, os, os', k, p, q, q', p1, q1, p2, q2, d, d', t, hm, h, h' => by
    cases os <;> cases os' <;> simp only [hadRowView, Except.ok.injEq, Prod.mk.injEq] at h h' <;> rw [← h.2.2.1, ← h'.2.2.1]
  | c + 1, [], os', k, p, q, q', p1, q1, p2, q2, d, d', t, hm, h, h' => by cases h
  | c + 1, o :: os, [], k, p, q, q', p1, q1, p2, q2, d, d', t, hm, h, h' => by cases h'
  | c + 1, o :: os, o' :: os', k, p, q, q', p1, q1, p2, q2, d, d', t, hm, h, h' => by
    obtain ⟨a, b, s, ds, ts, ea, -, -, -, et, hr⟩ := hadRowView_inv h
    obtain ⟨a', b', s', ds', ts', ea', -, -, -, et', hr'⟩ := hadRowView_inv h'
    simp only [List.map_cons, List.cons.injEq, Prod.mk.injEq] at hm
    rw [ea] at ea'
    cases ea'
    rw [et] at et'
    simp only [List.cons.injEq] at et'
    rw [← et'.1, ← et'.2, hm.1.2] at hr'
    exact hadRowView_fst c hm.2 hr hr'

/-- What the sender adds up depends on what it holds and receives only. -/
theorem hadRowView_snd {fP fP' fQ : List Byte} {sQ : List (BitVec 32)} : ∀ (c : Nat) {os os' : List Ot} {k : Nat}
    {p p' q p1 q1 p2 q2 : BitVec 32} {d : List Bool} {t t' : List (BitVec 32)},
    os'.map (fun o => (o.m0, o.m1)) = os.map (fun o => (o.m0, o.m1)) → hadRowView fP fQ sQ os c k p q = .ok (d, t, p1, q1) →
    hadRowView fP' fQ sQ os' c k p' q = .ok (d, t', p2, q2) → q2 = q1
  | 0, os, os', k, p, p', q, p1, q1, p2, q2, d, t, t', hm, h, h' => by
    cases os <;> cases os' <;> simp only [hadRowView, Except.ok.injEq, Prod.mk.injEq] at h h' <;> rw [← h.2.2.2, ← h'.2.2.2]
  | c + 1, [], os', k, p, p', q, p1, q1, p2, q2, d, t, t', hm, h, h' => by cases h
  | c + 1, o :: os, [], k, p, p', q, p1, q1, p2, q2, d, t, t', hm, h, h' => by cases h'
  | c + 1, o :: os, o' :: os', k, p, p', q, p1, q1, p2, q2, d, t, t', hm, h, h' => by
    obtain ⟨a, b, s, ds, ts, -, eb, es, ed, -, hr⟩ := hadRowView_inv h
    obtain ⟨a', b', s', ds', ts', -, eb', es', ed', -, hr'⟩ := hadRowView_inv h'
    simp only [List.map_cons, List.cons.injEq] at hm
    rw [eb] at eb'
    cases eb'
    rw [es] at es'
    cases es'
    rw [ed] at ed'
    simp only [List.cons.injEq] at ed'
    have hq : (hadReply o' (o'.c ^^ a') b s).2 = (hadReply o (o.c ^^ a) b s).2 := by
      rw [← ed'.1]
      simp only [hadReply, msg_eq hm.1]
    rw [hq, ← ed'.2] at hr'
    exact hadRowView_snd c hm.2 hr hr'

theorem hadRowsView_inv {fP fQ : List Byte} {sQ : List (BitVec 32)} {cols m : Nat} {ots : List Ot} {i : Nat} {d : List Bool}
    {t : List (BitVec 32)} {x : List (BitVec 32 × BitVec 32)} (h : hadRowsView fP fQ sQ cols ots i (m + 1) = .ok (d, t, x)) :
    ∃ d1 t1 p q d2 t2 r, hadRowView fP fQ sQ ots cols (i * cols) 0 0 = .ok (d1, t1, p, q) ∧
      hadRowsView fP fQ sQ cols (ots.drop cols) (i + 1) m = .ok (d2, t2, r) ∧ d = d1 ++ d2 ∧ t = t1 ++ t2 ∧ x = (p, q) :: r := by
  unfold hadRowsView at h
  cases h1 : hadRowView fP fQ sQ ots cols (i * cols) 0 0 with
  | error e => rw [h1] at h; cases h
  | ok v =>
    cases h2 : hadRowsView fP fQ sQ cols (ots.drop cols) (i + 1) m with
    | error e => rw [h1, h2] at h; cases h
    | ok u =>
      rw [h1, h2] at h
      simp only [ok_bind, Except.ok.injEq, Prod.mk.injEq] at h
      exact ⟨v.1, v.2.1, v.2.2.1, v.2.2.2, u.1, u.2.1, u.2.2, rfl, rfl, h.1.symm, h.2.1.symm, h.2.2.symm⟩

theorem hadRowsView_len {fP fQ : List Byte} {sQ : List (BitVec 32)} {cols : Nat} : ∀ (m : Nat) {ots : List Ot} {i : Nat} {d : List Bool}
    {t : List (BitVec 32)} {x : List (BitVec 32 × BitVec 32)}, hadRowsView fP fQ sQ cols ots i m = .ok (d, t, x) →
    d.length = m * cols ∧ t.length = m * cols
  | 0, ots, i, d, t, x, h => by
    simp only [hadRowsView, Except.ok.injEq, Prod.mk.injEq] at h
    simp [← h.1, ← h.2.1]
  | m + 1, ots, i, d, t, x, h => by
    obtain ⟨d1, t1, p, q, d2, t2, r, h1, h2, ed, et, -⟩ := hadRowsView_inv h
    have a := hadRowView_len cols h1
    have b := hadRowsView_len m h2
    simp [ed, et, a.1, a.2, b.1, b.2, Nat.succ_mul, Nat.add_comm]

/-- A fact about one row holds of the rows of a batch and of all batches: `R` is what the viewer sees of the transfers, `π` its own sum. -/
theorem hadRowsView_lift {γ : Type} {f : Ot → γ} {π : BitVec 32 × BitVec 32 → BitVec 32} {fP fP' fQ fQ' : List Byte} {sQ sQ' : List (BitVec 32)} {cols : Nat}
    (H : ∀ {os os' : List Ot} {k : Nat} {p1 q1 p2 q2 : BitVec 32} {d : List Bool} {t : List (BitVec 32)}, os'.map f = os.map f →
      hadRowView fP fQ sQ os cols k 0 0 = .ok (d, t, p1, q1) → hadRowView fP' fQ' sQ' os' cols k 0 0 = .ok (d, t, p2, q2) →
      π (p2, q2) = π (p1, q1)) : ∀ (m : Nat) {os os' : List Ot} {i : Nat} {d : List Bool} {t : List (BitVec 32)}
      {x x' : List (BitVec 32 × BitVec 32)}, os'.map f = os.map f →
      hadRowsView fP fQ sQ cols os i m = .ok (d, t, x) → hadRowsView fP' fQ' sQ' cols os' i m = .ok (d, t, x') → x'.map π = x.map π
  | 0, os, os', i, d, t, x, x', hm, h, h' => by
    simp only [hadRowsView, Except.ok.injEq, Prod.mk.injEq] at h h'
    rw [← h.2.2, ← h'.2.2]
  | m + 1, os, os', i, d, t, x, x', hm, h, h' => by
    obtain ⟨d1, t1, p, q, d2, t2, r, h1, h2, ed, et, ex⟩ := hadRowsView_inv h
    obtain ⟨d1', t1', p', q', d2', t2', r', h1', h2', ed', et', ex'⟩ := hadRowsView_inv h'
    have a := hadRowView_len cols h1
    have a' := hadRowView_len cols h1'
    obtain ⟨e1, e2⟩ := List.append_inj (ed.symm.trans ed') (a.1.trans a'.1.symm)
    obtain ⟨e3, e4⟩ := List.append_inj (et.symm.trans et') (a.2.trans a'.2.symm)
    rw [← e1, ← e3] at h1'
    rw [← e2, ← e4] at h2'
    rw [ex, ex', List.map_cons, List.map_cons, H hm h1 h1',
      hadRowsView_lift H m (by rw [List.map_drop, List.map_drop, hm]) h2 h2']

theorem hadView_lift {γ : Type} {f : Ot → γ} {π : BitVec 32 × BitVec 32 → BitVec 32} {fP fP' fQ fQ' : List Byte} {sQ sQ' : List (BitVec 32)} {n cols : Nat}
    (H : ∀ {os os' : List Ot} {k : Nat} {p1 q1 p2 q2 : BitVec 32} {d : List Bool} {t : List (BitVec 32)}, os'.map f = os.map f →
      hadRowView fP fQ sQ os cols k 0 0 = .ok (d, t, p1, q1) → hadRowView fP' fQ' sQ' os' cols k 0 0 = .ok (d, t, p2, q2) →
      π (p2, q2) = π (p1, q1)) : ∀ (bs bs' : List (List Ot)) (i : Nat) {d : List Bool} {t : List (BitVec 32)}
      {x x' : List (BitVec 32 × BitVec 32)}, bs'.map (List.map f) = bs.map (List.map f) →
      hadView fP fQ sQ n cols bs i = .ok (d, t, x) → hadView fP' fQ' sQ' n cols bs' i = .ok (d, t, x') → x'.map π = x.map π
  | [], [], i, d, t, x, x', hm, h, h' => by
    unfold hadView at h h'
    split at h
    · simp_all
    · cases h
  | [], _ :: _, i, d, t, x, x', hm, h, h' => by cases hm
  | _ :: _, [], i, d, t, x, x', hm, h, h' => by cases hm
  | b :: bs, b' :: bs', i, d, t, x, x', hm, h, h' => by
    simp only [List.map_cons, List.cons.injEq] at hm
    have hl : b'.length = b.length := by simpa using congrArg List.length hm.1
    unfold hadView at h h'
    rw [hl] at h'
    split at h
    · simp_all
    · rename_i hi
      rw [if_neg hi] at h'
      cases h0 : throwIf (b.length % cols != 0) with
      | error e => rw [h0] at h; cases h
      | ok _ =>
        rw [h0] at h h'
        simp only [ok_bind] at h h'
        cases h1 : hadRowsView fP fQ sQ cols b i (min (n - i) (b.length / cols)) with
        | error e => rw [h1] at h; cases h
        | ok v =>
          cases h1' : hadRowsView fP' fQ' sQ' cols b' i (min (n - i) (b.length / cols)) with
          | error e => rw [h1'] at h'; cases h'
          | ok v' =>
            cases h2 : hadView fP fQ sQ n cols bs (i + min (n - i) (b.length / cols)) with
            | error e => rw [h1, h2] at h; cases h
            | ok u =>
              cases h2' : hadView fP' fQ' sQ' n cols bs' (i + min (n - i) (b.length / cols)) with
              | error e => rw [h1', h2'] at h'; cases h'
              | ok u' =>
                rw [h1, h2] at h
                rw [h1', h2'] at h'
                simp only [ok_bind, Except.ok.injEq, Prod.mk.injEq] at h h'
                obtain ⟨d1, t1, x1⟩ := v
                obtain ⟨d1', t1', x1'⟩ := v'
                obtain ⟨d2, t2, x2⟩ := u
                obtain ⟨d2', t2', x2'⟩ := u'
                simp only at h h'
                have a := hadRowsView_len _ h1
                have a' := hadRowsView_len _ h1'
                obtain ⟨e1, e2⟩ := List.append_inj (h.1.trans h'.1.symm) (a.1.trans a'.1.symm)
                obtain ⟨e3, e4⟩ := List.append_inj (h.2.1.trans h'.2.1.symm) (a.2.trans a'.2.symm)
                subst e1 e2 e3 e4
                rw [← h.2.2, ← h'.2.2, List.map_append, List.map_append, hadRowsView_lift H _ hm.1 h1 h1',
                  hadView_lift H bs bs' _ hm.2 h2 h2']

theorem hadView_fst {fP fQ fQ' : List Byte} {sQ sQ' : List (BitVec 32)} {n cols : Nat} (bs bs' : List (List Ot)) (i : Nat) {d : List Bool}
    {t : List (BitVec 32)} {x x' : List (BitVec 32 × BitVec 32)}
    (hm : bs'.map (List.map fun o => (o.c, o.got)) = bs.map (List.map fun o => (o.c, o.got)))
    (h : hadView fP fQ sQ n cols bs i = .ok (d, t, x)) (h' : hadView fP fQ' sQ' n cols bs' i = .ok (d, t, x')) :
    x'.map Prod.fst = x.map Prod.fst :=
  hadView_lift (π := Prod.fst) (fun a b c => hadRowView_fst cols a b c) bs bs' i hm h h'

theorem hadView_snd {fP fP' fQ : List Byte} {sQ : List (BitVec 32)} {n cols : Nat} (bs bs' : List (List Ot)) (i : Nat) {d : List Bool}
    {t : List (BitVec 32)} {x x' : List (BitVec 32 × BitVec 32)}
    (hm : bs'.map (List.map fun o => (o.m0, o.m1)) = bs.map (List.map fun o => (o.m0, o.m1)))
    (h : hadView fP fQ sQ n cols bs i = .ok (d, t, x)) (h' : hadView fP' fQ sQ n cols bs' i = .ok (d, t, x')) :
    x'.map Prod.snd = x.map Prod.snd :=
  hadView_lift (π := Prod.snd) (fun a b c => hadRowView_snd cols a b c) bs bs' i hm h h'

end Radix
end SecJoin
