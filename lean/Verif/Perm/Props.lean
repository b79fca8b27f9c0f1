import Mathlib.Logic.Equiv.Fin.Basic
import Mathlib.Data.Fintype.EquivFin
import Verif.Perm.Lemmas
/-!
# C01 - C04: plaintext permutations

Specification: a vector of entries is a permutation iff some bijection `σ` of `Fin n` has
`pi[i] = σ i`. Nothing of the model is used in `IsBijection`.
-/
namespace SecJoin

/-- The vector `pi` describes a bijection of `{0, .., n-1}`. -/
def IsBijection (pi : List Nat) : Prop :=
  ∃ σ : Equiv.Perm (Fin pi.length), ∀ i : Fin pi.length, pi[i] = (σ i : Nat)

theorem isBijection_iff (pi : List Nat) : IsBijection pi ↔ IsPermList pi := by
  constructor
  · rintro ⟨σ, h⟩
    constructor
    · intro x hx
      obtain ⟨i, hi, rfl⟩ := List.getElem_of_mem hx
      have := h ⟨i, hi⟩
      simp only [Fin.getElem_fin] at this
      rw [this]; exact (σ ⟨i, hi⟩).2
    · rw [List.nodup_iff_injective_get]
      intro a b hab
      have : (σ a : Nat) = σ b := by
        rw [← h a, ← h b]; simpa using hab
      exact σ.injective (Fin.ext this)
  · intro h
    let f : Fin pi.length → Fin pi.length := fun i => ⟨pi[i], h.1 _ (List.getElem_mem i.2)⟩
    have hf : Function.Injective f := by
      intro a b hab
      have : pi[a] = pi[b] := congrArg Fin.val hab
      exact (List.nodup_iff_injective_get.mp h.2) (by simpa using this)
    exact ⟨Equiv.ofBijective f (Finite.injective_iff_bijective.mp hf), fun i => rfl⟩

/-! ## C01 -/

/-- C01, forward direction: output row `i` is input row `pi(i)`; all rows are there. -/
theorem C01_apply_regular {α : Type} (p : Perm) (hp : IsBijection p.pi) (src dst : Mat α)
    (h1 : src.rows.length = p.pi.length) (h2 : dst.rows.length = p.pi.length)
    (h3 : src.cols = dst.cols) :
    ∃ out, p.apply src dst .regular = .ok out ∧ out.cols = src.cols ∧
      out.rows.length = src.rows.length ∧
      ∀ i (hi : i < p.pi.length), out.rows[i]? = src.rows[p.pi[i]]? := by
  have hp' := (isBijection_iff _).mp hp
  have hb : ∀ x ∈ p.pi, x < src.rows.length := by rw [h1]; exact hp'.1
  refine ⟨_, Perm.apply_regular_eq hp'.1 h1 h2 h3, rfl, ?_, ?_⟩
  · rw [gather_length hb, h1]
  · intro i hi
    simp only
    rw [gather_getElem? hb, List.getElem?_eq_getElem hi]; rfl

/-- C01, inverse direction: output row `pi(i)` is input row `i`. -/
theorem C01_apply_inverse {α : Type} (p : Perm) (hp : IsBijection p.pi) (src dst : Mat α)
    (h1 : src.rows.length = p.pi.length) (h2 : dst.rows.length = p.pi.length)
    (h3 : src.cols = dst.cols) :
    ∃ out, p.apply src dst .inverse = .ok out ∧ out.cols = src.cols ∧
      out.rows.length = src.rows.length ∧
      ∀ i (hi : i < p.pi.length), out.rows[p.pi[i]]? = src.rows[i]? := by
  have hp' := (isBijection_iff _).mp hp
  have hb : ∀ x ∈ invList p.pi, x < src.rows.length := by
    intro x hx
    have := (invList_isPerm hp').1 x hx
    rw [invList_length] at this; omega
  refine ⟨_, Perm.apply_inverse_eq hp' h1 h2 h3, rfl, ?_, ?_⟩
  · rw [gather_length hb, h1, invList_length]
  · intro i hi
    simp only
    rw [gather_getElem? hb, invList_getElem? (hp'.1 _ (List.getElem_mem hi)),
      idxOf_getElem' hp'.2 hi]; rfl

/-- C01, round trips: forward then inverse and inverse then forward return the original matrix,
whatever the destination buffers held. -/
theorem C01_round_trip {α : Type} (p : Perm) (hp : IsBijection p.pi) (src d1 d2 : Mat α)
    (h1 : src.rows.length = p.pi.length) (h2 : d1.rows.length = p.pi.length)
    (h3 : d2.rows.length = p.pi.length) (h4 : d1.cols = src.cols) (h5 : d2.cols = src.cols) :
    (p.apply src d1 .regular >>= fun m => p.apply m d2 .inverse) = .ok src ∧
    (p.apply src d1 .inverse >>= fun m => p.apply m d2 .regular) = .ok src := by
  have hp' := (isBijection_iff _).mp hp
  have hb : ∀ x ∈ p.pi, x < src.rows.length := by rw [h1]; exact hp'.1
  have hbi : ∀ x ∈ invList p.pi, x < src.rows.length := by
    intro x hx
    have := (invList_isPerm hp').1 x hx
    rw [invList_length] at this; omega
  constructor
  · rw [Perm.apply_regular_eq hp'.1 h1 h2 h4.symm, ok_bind,
      Perm.apply_inverse_eq (src := ⟨src.cols, gather p.pi src.rows⟩) hp'
        (by simp only [gather_length hb]; rfl) h3 h5.symm]
    simp only [(gather_cancel hp' h1).1]
  · rw [Perm.apply_inverse_eq hp' h1 h2 h4.symm, ok_bind,
      Perm.apply_regular_eq (src := ⟨src.cols, gather (invList p.pi) src.rows⟩) hp'.1
        (by simp only [gather_length hbi, invList_length]; rfl) h3 h5.symm]
    simp only [(gather_cancel hp' h1).2]

/-- C01, refusal: with a wrong number of rows or different widths the call throws, in both
directions and for every vector `pi`. -/
theorem C01_refuse {α : Type} (p : Perm) (src dst : Mat α) (op : PermOp)
    (h : src.rows.length ≠ p.pi.length ∨ dst.rows.length ≠ p.pi.length ∨ src.cols ≠ dst.cols) :
    p.apply src dst op = .error .throw := by
  simp only [Perm.apply, Perm.size]
  by_cases h1 : src.rows.length = p.pi.length
  · by_cases h2 : dst.rows.length = p.pi.length
    · have h3 : src.cols ≠ dst.cols := by rcases h with h | h | h <;> first | contradiction | exact h
      simp [h1, h2, throwIf_ne h3]
    · simp [h1, throwIf_ne h2]
  · simp [throwIf_ne h1]

/-- The vector overload of `apply` and `applyInv` behaves as the matrix one. -/
theorem C01_vector_round_trip {α : Type} (p : Perm) (hp : IsBijection p.pi) (z : α) (src : List α)
    (h1 : src.length = p.pi.length) :
    (∃ out, p.applyVec z src .regular = .ok out ∧
      (∀ i (hi : i < p.pi.length), out[i]? = src[p.pi[i]]?) ∧
      p.applyVec z out .inverse = .ok src) ∧
    (∃ out, p.applyVec z src .inverse = .ok out ∧
      (∀ i (hi : i < p.pi.length), out[p.pi[i]]? = src[i]?) ∧
      p.applyVec z out .regular = .ok src) := by
  have hp' := (isBijection_iff _).mp hp
  have hb : ∀ x ∈ p.pi, x < src.length := by rw [h1]; exact hp'.1
  have hbi : ∀ x ∈ invList p.pi, x < src.length := by
    intro x hx
    have := (invList_isPerm hp').1 x hx
    rw [invList_length] at this; omega
  refine ⟨⟨_, Perm.applyVec_regular_eq hp'.1 h1, ?_, ?_⟩, ⟨_, Perm.applyVec_inverse_eq hp' h1, ?_, ?_⟩⟩
  · intro i hi
    rw [gather_getElem? hb, List.getElem?_eq_getElem hi]; rfl
  · rw [Perm.applyVec_inverse_eq hp' (by rw [gather_length hb]; rfl), (gather_cancel hp' h1).1]
  · intro i hi
    rw [gather_getElem? hbi, invList_getElem? (hp'.1 _ (List.getElem_mem hi)),
      idxOf_getElem' hp'.2 hi]; rfl
  · rw [Perm.applyVec_regular_eq hp'.1 (by rw [gather_length hbi, invList_length]; rfl),
      (gather_cancel hp' h1).2]

/-- A permutation of ten rows (one block of eight and a tail of two). -/
def exPerm10 : List Nat := [3, 9, 0, 5, 7, 1, 2, 8, 6, 4]

theorem exPerm10_bij : IsBijection exPerm10 := by
  rw [isBijection_iff]; unfold IsPermList exPerm10; decide

example : ∃ (p : Perm) (src dst : Mat Nat), IsBijection p.pi ∧ src.rows.length = p.pi.length ∧
    dst.rows.length = p.pi.length ∧ src.cols = dst.cols :=
  ⟨⟨exPerm10⟩, ⟨1, List.range 10⟩, ⟨1, List.replicate 10 0⟩, exPerm10_bij, rfl, rfl, rfl⟩

example : (⟨exPerm10⟩ : Perm).apply ⟨1, (List.range 10).map (· + 100)⟩ ⟨1, List.replicate 10 0⟩
    .regular = .ok ⟨1, [103, 109, 100, 105, 107, 101, 102, 108, 106, 104]⟩ := by decide

example : (⟨exPerm10⟩ : Perm).apply ⟨1, List.range 9⟩ ⟨1, List.replicate 10 0⟩ .regular
    = .error .throw := by decide

/-! ## C02 -/

/-- C02: composing succeeds, is a permutation, and applying `A.compose B` equals applying `B`
first and `A` second. -/
theorem C02_compose {α : Type} (a b : Perm) (ha : IsBijection a.pi) (hb : IsBijection b.pi)
    (hs : a.pi.length = b.pi.length) :
    ∃ c, a.compose b = .ok c ∧ IsBijection c.pi ∧ c.pi.length = a.pi.length ∧
      (∀ i (hi : i < a.pi.length), c.pi[i]? = b.pi[a.pi[i]]?) ∧
      ∀ (src d1 d2 d3 : Mat α), src.rows.length = a.pi.length → d1.rows.length = a.pi.length →
        d2.rows.length = a.pi.length → d3.rows.length = a.pi.length →
        d1.cols = src.cols → d2.cols = src.cols → d3.cols = src.cols →
        c.apply src d1 .regular =
          (b.apply src d2 .regular >>= fun m => a.apply m d3 .regular) ∧
        c.apply src d1 .inverse =
          (a.apply src d2 .inverse >>= fun m => b.apply m d3 .inverse) := by
  have ha' := (isBijection_iff _).mp ha
  have hb' := (isBijection_iff _).mp hb
  have hab : ∀ x ∈ a.pi, x < b.pi.length := by rw [← hs]; exact ha'.1
  have hc := gather_isPerm ha' hb' hs
  have hcl : (gather a.pi b.pi).length = a.pi.length := gather_length hab
  refine ⟨⟨gather a.pi b.pi⟩, Perm.compose_eq ha'.1 hs.symm, (isBijection_iff _).mpr hc, hcl, ?_, ?_⟩
  · intro i hi
    simp only
    rw [gather_getElem? hab, List.getElem?_eq_getElem hi]; rfl
  · intro src d1 d2 d3 h1 h2 h3 h4 e1 e2 e3
    have hbx : ∀ x ∈ b.pi, x < src.rows.length := by rw [h1, hs]; exact hb'.1
    have hgl : (gather b.pi src.rows).length = a.pi.length := by rw [gather_length hbx, hs]
    have reg : (⟨gather a.pi b.pi⟩ : Perm).apply src d1 .regular =
          (b.apply src d2 .regular >>= fun m => a.apply m d3 .regular) := by
      rw [Perm.apply_regular_eq (p := ⟨gather a.pi b.pi⟩) hc.1 (by rw [h1, Perm.size, hcl]) (by rw [h2, Perm.size, hcl]) e1.symm,
        Perm.apply_regular_eq hb'.1 (by rw [h1, Perm.size, hs]) (by rw [h3, Perm.size, hs]) e2.symm,
        ok_bind, Perm.apply_regular_eq (src := ⟨src.cols, gather b.pi src.rows⟩) ha'.1 hgl h4 e3.symm]
      simp only [gather_gather hab hbx]
    refine ⟨reg, ?_⟩
    have hil : (gather (invList a.pi) src.rows).length = a.pi.length := by
      rw [gather_length, invList_length]
      intro x hx
      have := (invList_isPerm ha').1 x hx
      rw [invList_length] at this; omega
    rw [Perm.apply_inverse_eq (p := ⟨gather a.pi b.pi⟩) hc (by rw [h1, Perm.size, hcl]) (by rw [h2, Perm.size, hcl]) e1.symm,
      Perm.apply_inverse_eq ha' h1 h3 e2.symm, ok_bind,
      Perm.apply_inverse_eq (src := ⟨src.cols, gather (invList a.pi) src.rows⟩) hb'
        (by rw [hil, hs]; rfl) (by rw [h4, hs]; rfl) e3.symm]
    congr 2
    -- both sides are sent to `src.rows` by `gather c`
    have k1 := (gather_cancel hc (x := src.rows) (by rw [hcl, h1])).2
    have hil' : (gather (invList b.pi) (gather (invList a.pi) src.rows)).length = b.pi.length := by
      rw [gather_length, invList_length]
      intro x hx
      have := (invList_isPerm hb').1 x hx
      rw [invList_length] at this; rw [hil]; omega
    have k2 : gather (gather a.pi b.pi) (gather (invList b.pi) (gather (invList a.pi) src.rows)) = src.rows := by
      rw [← gather_gather hab (by rw [hil']; exact hb'.1), (gather_cancel hb' (by rw [hil, hs])).2,
        (gather_cancel ha' h1).2]
    have k3 := (gather_cancel hc
      (x := gather (invList b.pi) (gather (invList a.pi) src.rows)) (by rw [hil', hcl, hs])).1
    rw [k2] at k3
    exact k3

/-- C02: the inverse is a permutation and composes to the identity on both sides. -/
theorem C02_inverse (p : Perm) (hp : IsBijection p.pi) :
    ∃ q, p.inverse = .ok q ∧ IsBijection q.pi ∧ q.pi.length = p.pi.length ∧
      (∀ i (hi : i < p.pi.length), q.pi[p.pi[i]]? = some i) ∧
      p.compose q = .ok (Perm.id p.pi.length) ∧ q.compose p = .ok (Perm.id p.pi.length) := by
  have hp' := (isBijection_iff _).mp hp
  have hi := invList_isPerm hp'
  refine ⟨⟨invList p.pi⟩, Perm.inverse_eq hp', (isBijection_iff _).mpr hi, invList_length _, ?_, ?_, ?_⟩
  · intro i hi'
    simp only
    rw [invList_getElem? (hp'.1 _ (List.getElem_mem hi')), idxOf_getElem' hp'.2 hi']
  · rw [Perm.compose_eq hp'.1 (by simp [Perm.size, invList_length]), gather_self_invList hp']; rfl
  · rw [Perm.compose_eq (p := ⟨invList p.pi⟩) (q := p) hi.1 (by simp [Perm.size, invList_length]), gather_invList_self hp']; rfl

/-- C02: composing permutations of different sizes is refused. -/
theorem C02_compose_refuse (a b : Perm) (h : b.pi.length ≠ a.pi.length) :
    a.compose b = .error .throw := by
  rw [Perm.compose, Perm.applyVec, C01_refuse a _ _ _ (Or.inl h)]; rfl

example : ∃ a b : Perm, IsBijection a.pi ∧ IsBijection b.pi ∧ a.pi.length = b.pi.length ∧
    a.compose b ≠ b.compose a :=
  ⟨⟨[1, 2, 0]⟩, ⟨[1, 0, 2]⟩, by rw [isBijection_iff]; unfold IsPermList; decide,
    by rw [isBijection_iff]; unfold IsPermList; decide, rfl, by decide⟩

example : (⟨exPerm10⟩ : Perm).inverse = .ok ⟨[2, 5, 6, 0, 9, 3, 8, 4, 7, 1]⟩ := by decide

/-! ## C03 -/

/-- C03: for every stream of words, the drawn vector is a permutation of `0, .., n-1`. -/
theorem C03_randomize (draw : Nat → Nat) (n : Nat) :
    ∃ p, Perm.randomize draw n = .ok p ∧ p.pi.length = n ∧ IsBijection p.pi ∧
      ∀ v, v < n → p.pi.count v = 1 := by
  obtain ⟨l, h, hp⟩ := Perm.randomizeLoop_perm draw n n le_rfl (List.range n) (by simp)
  have hl : l.length = n := by rw [hp.length_eq]; simp
  have hperm : IsPermList l := by
    rw [isPermList_iff_perm, hl]; exact hp
  refine ⟨⟨l⟩, by rw [Perm.randomize, h]; rfl, hl, (isBijection_iff _).mpr hperm, ?_⟩
  intro v hv
  exact List.count_eq_one_of_mem hperm.2 (hperm.mem (by omega))

example : Perm.randomize (fun i => i * 7 + 3) 5 = .ok ⟨[3, 0, 4, 1, 2]⟩ := by decide

/-! ## C04 -/

/-- C04: `validate` accepts exactly the vectors that describe a bijection and throws for all
others; it never runs into undefined behaviour. -/
theorem C04_validate (p : Perm) :
    (p.validate = .ok () ↔ IsBijection p.pi) ∧
    (p.validate = .error .throw ↔ ¬ IsBijection p.pi) := by
  rw [isBijection_iff]
  rcases Perm.validate_iff p with ⟨h1, h2⟩ | ⟨h1, h2⟩ <;> simp [h1, h2]

/-- C04: being a bijection is the same as all entries below the size and no value twice. -/
theorem C04_bijection_iff (pi : List Nat) :
    IsBijection pi ↔ (∀ x ∈ pi, x < pi.length) ∧ pi.Nodup := isBijection_iff pi

/-- C04 for XOR-shared permutations: the joint validation accepts exactly when the two shares have
the same length and XOR to a bijection. Both parties reach the same verdict. -/
theorem C04_additive_validate (s0 s1 : List Nat) :
    (AdditivePerm.validate s0 s1 = .ok () ↔
      s0.length = s1.length ∧ IsBijection (List.zipWith (· ^^^ ·) s0 s1)) ∧
    AdditivePerm.validate s1 s0 = AdditivePerm.validate s0 s1 := by
  have hx : xorShares s0 s1 = List.zipWith (· ^^^ ·) s0 s1 := by
    rw [xorShares, List.zipWith_comm]
    congr 1
    funext a b
    exact Nat.xor_comm _ _
  have hx' : xorShares s1 s0 = List.zipWith (· ^^^ ·) s0 s1 := rfl
  constructor
  · by_cases h : s0.length = s1.length
    · simp only [AdditivePerm.validate, h, bne_self_eq_false, throwIf_false, ok_bind, hx, true_and]
      exact (C04_validate _).1
    · simp [AdditivePerm.validate, h, throwIf_ne h]
  · by_cases h : s0.length = s1.length
    · simp [AdditivePerm.validate, h, hx, hx']
    · simp [AdditivePerm.validate, throwIf_ne h, throwIf_ne (Ne.symm h)]

example : (⟨exPerm10⟩ : Perm).validate = .ok () := by decide
example : (⟨[0, 2, 2]⟩ : Perm).validate = .error .throw := by decide
example : (⟨[0, 3, 1]⟩ : Perm).validate = .error .throw := by decide
example : AdditivePerm.validate [5, 6, 7] [7, 6, 6] = .ok () := by decide

end SecJoin
