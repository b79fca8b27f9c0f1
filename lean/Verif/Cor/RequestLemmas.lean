import Verif.Cor.Request
/-!
# Requests for correlations: lemmas
-/
namespace SecJoin
namespace Cor

theorem roundUp_of_dvd {x : Nat} (h : x % 128 = 0) : roundUp x = x := by unfold roundUp; omega
theorem roundUp_mod (x : Nat) : roundUp x % 128 = 0 := by unfold roundUp; omega
theorem sub64_eq {a b : Nat} (h : b ≤ a) (ha : a < 2 ^ 64) : sub64 a b = a - b := by unfold sub64; omega

/-- A state in which nothing has gone wrong, and the pieces handed out so far. -/
structure Inv (g : Gen) (L : List Piece) : Prop where
  mul : g.batchSize % 128 = 0
  pos : 0 < g.batchSize
  lt : g.batchSize < 2 ^ 64
  size : ∀ b, (h : b < g.batches.length) → g.batches[b].size ≤ g.batchSize ∧ g.batches[b].size % 128 = 0
  cur : ∀ k r b, g.cur k r = some b → ∃ h : b < g.batches.length, g.batches[b].kind = k ∧ g.batches[b].role = r ∧ g.batches[b].size < g.batchSize
  led : ∀ p ∈ L, 0 < p.size ∧ p.size % 128 = 0 ∧ p.off % 128 = 0 ∧ ∃ h : p.batch < g.batches.length, p.off + p.size ≤ g.batches[p.batch].size
  sum : ∀ b, (h : b < g.batches.length) → ((L.filter fun p => p.batch == b).map (·.size)).sum = g.batches[b].size
  disj : L.Pairwise fun p q => p.batch = q.batch → p.off + p.size ≤ q.off

theorem filter_none {L : List Piece} {b : Nat} (h : ∀ p ∈ L, p.batch < b) : L.filter (fun p => p.batch == b) = [] := by
  rw [List.filter_eq_nil_iff]
  intro p hp
  have := h p hp
  simp
  omega

/-- Choosing the batch. -/
theorem pick_inv {g : Gen} {L : List Piece} (h : Inv g L) (k : Kind) (r : Bool) {b : Nat} {g' : Gen} (e : pick g k r = (b, g')) :
    Inv g' L ∧ g'.batchSize = g.batchSize ∧ g'.party = g.party ∧ g'.cur k r = some b ∧ g.batches.length ≤ g'.batches.length ∧
      ∀ i, (hi : i < g.batches.length) → g'.batches[i]? = some g.batches[i] := by
  unfold pick at e
  split at e
  · rename_i b' hb
    cases e
    exact ⟨h, rfl, rfl, hb, Nat.le_refl _, fun i hi => by simp [hi]⟩
  · rename_i hn
    cases e
    have hget : ∀ i, (hi : i < g.batches.length) → (g.batches ++ [⟨k, r, 0⟩])[i]'(by simp; omega) = g.batches[i] := fun i hi =>
      List.getElem_append_left hi
    refine ⟨⟨h.mul, h.pos, h.lt, fun b hb => ?_, fun k' r' b hb => ?_, fun p hp => ?_, fun b hb => ?_, h.disj⟩, rfl, rfl, by simp [setCur], by simp,
      fun i hi => by simp [List.getElem?_append_left hi]⟩
    · simp only [List.length_append, List.length_singleton] at hb
      by_cases hb' : b < g.batches.length
      · simp only [hget b hb']
        exact h.size b hb'
      · have : b = g.batches.length := by omega
        subst this
        simp
    · simp only [setCur] at hb
      split at hb
      · rename_i hk
        cases hb
        refine ⟨by simp, ?_⟩
        simp [hk.1, hk.2, h.pos]
      · obtain ⟨h1, h2⟩ := h.cur k' r' b hb
        refine ⟨by simp; omega, ?_⟩
        simp only [hget b h1]
        exact h2
    · obtain ⟨a1, a2, a0, h1, h2⟩ := h.led p hp
      refine ⟨a1, a2, a0, by simp; omega, ?_⟩
      simp only [hget _ h1]
      exact h2
    · simp only [List.length_append, List.length_singleton] at hb
      by_cases hb' : b < g.batches.length
      · simp only [hget b hb']
        exact h.sum b hb'
      · have : b = g.batches.length := by omega
        subst this
        rw [filter_none fun p hp => (h.led p hp).2.2.2.1]
        simp

/-- One round. -/
theorem carve1_inv {g : Gen} {L : List Piece} (h : Inv g L) (k : Kind) (r : Bool) {rem : Nat} (hr : 0 < rem) (hm : rem % 128 = 0)
    {p : Piece} {g' : Gen} (e : carve1 g k r rem = (p, g')) :
    Inv g' (L ++ [p]) ∧ g'.batchSize = g.batchSize ∧ g'.party = g.party ∧ 0 < p.size ∧ p.size ≤ rem ∧
      (p.size < rem → p.off + p.size = g.batchSize ∧ g'.cur k r = none) ∧ (g.cur k r = none → p.off = 0) ∧
      (∃ hb : p.batch < g'.batches.length, g'.batches[p.batch].kind = k ∧ g'.batches[p.batch].role = r) ∧
      g.batches.length ≤ g'.batches.length ∧
      ∀ i, (hi : i < g.batches.length) → ∃ h' : i < g'.batches.length, g'.batches[i].kind = g.batches[i].kind ∧ g'.batches[i].role = g.batches[i].role := by
  unfold carve1 at e
  obtain ⟨b, g1, hp1⟩ : ∃ b g1, pick g k r = (b, g1) := ⟨_, _, rfl⟩
  obtain ⟨h1, e1, e1', e2, e3, e4⟩ := pick_inv h k r hp1
  have hnew : g.cur k r = none → (g1.batches.getD b ⟨k, r, 0⟩).size = 0 := by
    intro hn
    unfold pick at hp1
    rw [hn] at hp1
    cases hp1
    simp
  rw [hp1] at e
  simp only at e
  obtain ⟨hb, hk, hrr, hlt⟩ := h1.cur k r b e2
  have hg : g1.batches.getD b ⟨k, r, 0⟩ = g1.batches[b] := by simp [List.getD_eq_getElem?_getD, hb]
  rw [hg] at e hnew
  have hsz := h1.size b hb
  rw [sub64_eq hsz.1 h1.lt] at e
  have hmul := h1.mul
  have hdvd : min rem (g1.batchSize - g1.batches[b].size) % 128 = 0 := by
    rcases Nat.le_total rem (g1.batchSize - g1.batches[b].size) with hle | hle
    · rw [Nat.min_eq_left hle]; exact hm
    · rw [Nat.min_eq_right hle]; omega
  rw [roundUp_of_dvd hdvd] at e
  obtain ⟨sz, hszd⟩ : ∃ sz, sz = min rem (g1.batchSize - g1.batches[b].size) := ⟨_, rfl⟩
  rw [← hszd] at e hdvd
  have hsz0 : 0 < sz := by omega
  obtain ⟨hp, hg'⟩ := Prod.mk.inj e
  subst hp
  obtain ⟨g2, hg2⟩ : ∃ g2 : Gen, g2 = { g1 with batches := g1.batches.modify b fun x => { x with size := x.size + sz } } := ⟨_, rfl⟩
  rw [← hg2] at hg'
  have hbat : g'.batches = g2.batches := by rw [← hg']; split <;> (subst hg2; rfl)
  have hbs : g'.batchSize = g1.batchSize := by rw [← hg']; split <;> (subst hg2; rfl)
  have hpa : g'.party = g1.party := by rw [← hg']; split <;> (subst hg2; rfl)
  have hcur : g'.cur = if g1.batchSize - g1.batches[b].size = sz then setCur g1.cur k r none else g1.cur := by
    rw [← hg']; split <;> (subst hg2; rfl)
  have hlen : g'.batches.length = g1.batches.length := by rw [hbat, hg2]; simp
  have hge : ∀ i, (hi : i < g1.batches.length) → (g'.batches[i]'(by omega)).kind = g1.batches[i].kind ∧ (g'.batches[i]'(by omega)).role = g1.batches[i].role ∧
      (g'.batches[i]'(by omega)).size = if i = b then g1.batches[i].size + sz else g1.batches[i].size := by
    intro i hi
    have : g'.batches[i]'(by omega) = if b = i then { g1.batches[i] with size := g1.batches[i].size + sz } else g1.batches[i] := by
      simp only [hbat, hg2, List.getElem_modify]
    rw [this]
    by_cases hbi : b = i
    · subst hbi; simp
    · have : i ≠ b := fun h => hbi h.symm
      simp [hbi, this]
  have hb' : b < g'.batches.length := by omega
  refine ⟨⟨by rw [hbs]; exact h1.mul, by rw [hbs]; exact h1.pos, by rw [hbs]; exact h1.lt, fun i hi => ?_, fun k' r' i hi => ?_, fun p hp => ?_,
    fun i hi => ?_, ?_⟩, hbs.trans e1, hpa.trans e1', hsz0, by simp only; omega, fun hlt2 => ?_, fun hn => hnew hn, ⟨hb', ?_, ?_⟩, by omega, fun i hi => ?_⟩
  · have hi1 : i < g1.batches.length := by omega
    obtain ⟨-, -, s3⟩ := hge i hi1
    have := h1.size i hi1
    rw [s3, hbs]
    split
    · subst_vars
      omega
    · exact this
  · have hci : g1.cur k' r' = some i ∧ (i = b → sz < g1.batchSize - g1.batches[b].size) := by
      rw [hcur] at hi
      split at hi
      · rename_i hfull
        unfold setCur at hi
        split at hi
        · exact absurd hi (by simp)
        · rename_i hne
          refine ⟨hi, fun hib => ?_⟩
          subst hib
          obtain ⟨_, q1, q2, _⟩ := h1.cur k' r' i hi
          exact absurd ⟨q1.symm.trans hk, q2.symm.trans hrr⟩ hne
      · rename_i hfull
        exact ⟨hi, fun _ => by omega⟩
    obtain ⟨q0, q1, q2, q3⟩ := h1.cur k' r' i hci.1
    obtain ⟨s1, s2, s3⟩ := hge i q0
    refine ⟨by omega, s1.trans q1, s2.trans q2, ?_⟩
    rw [s3, hbs]
    split
    · rename_i hib
      have := hci.2 hib
      subst hib
      omega
    · exact q3
  · rw [List.mem_append, List.mem_singleton] at hp
    rcases hp with hp | rfl
    · obtain ⟨a1, a2, a0, a3, a4⟩ := h1.led p hp
      obtain ⟨s1, s2, s3⟩ := hge p.batch a3
      refine ⟨a1, a2, a0, by omega, ?_⟩
      rw [s3]
      split <;> omega
    · obtain ⟨s1, s2, s3⟩ := hge b hb
      refine ⟨hsz0, hdvd, hsz.2, hb', ?_⟩
      simp only [s3, if_true]
      omega
  · have hi1 : i < g1.batches.length := by omega
    obtain ⟨-, -, s3⟩ := hge i hi1
    rw [s3, List.filter_append, List.map_append, List.sum_append, h1.sum i hi1]
    by_cases hib : i = b
    · subst hib
      simp
    · have : ¬ b = i := fun h => hib h.symm
      simp [hib, this]
  · rw [List.pairwise_append]
    refine ⟨h1.disj, List.pairwise_singleton _ _, fun p hp q hq heq => ?_⟩
    rw [List.mem_singleton] at hq
    subst hq
    obtain ⟨a1, a2, a0, a3, a4⟩ := h1.led p hp
    simp only at heq ⊢
    subst heq
    exact a4
  · simp only at hlt2 ⊢
    have hfull : g1.batchSize - g1.batches[b].size = sz := by omega
    refine ⟨by omega, ?_⟩
    rw [hcur, if_pos hfull]
    simp [setCur]
  · exact (hge b hb).1.trans hk
  · exact (hge b hb).2.1.trans hrr
  · have hi1 : i < g1.batches.length := by omega
    obtain ⟨s1, s2, s3⟩ := hge i hi1
    have := e4 i hi
    rw [List.getElem?_eq_getElem hi1] at this
    have := Option.some.inj this
    exact ⟨by omega, by rw [s1, this], by rw [s2, this]⟩

theorem divCeil_sub {n B : Nat} (hB : 0 < B) (h : B < n) : divCeil (n - B) B + 1 = divCeil n B := by
  unfold divCeil
  rw [show n + B - 1 = (n - B + B - 1) + B by omega, Nat.add_div_right _ hB]

theorem divCeil_pos {n B : Nat} (hB : 0 < B) (h : 0 < n) : 1 ≤ divCeil n B := by
  unfold divCeil
  exact Nat.div_pos (by omega) hB

theorem divCeil_mono {n m B : Nat} (h : n ≤ m) : divCeil n B ≤ divCeil m B := by
  unfold divCeil
  exact Nat.div_le_div_right (by omega)

/-- The kinds of batches that exist already do not change. -/
def Keep (g g' : Gen) : Prop := g'.batchSize = g.batchSize ∧ g'.party = g.party ∧ g.batches.length ≤ g'.batches.length ∧
  ∀ i, (hi : i < g.batches.length) → ∃ h' : i < g'.batches.length, g'.batches[i].kind = g.batches[i].kind ∧ g'.batches[i].role = g.batches[i].role

theorem Keep.refl (g : Gen) : Keep g g := ⟨rfl, rfl, Nat.le_refl _, fun _ hi => ⟨hi, rfl, rfl⟩⟩

theorem Keep.trans {a b c : Gen} (h1 : Keep a b) (h2 : Keep b c) : Keep a c := by
  refine ⟨h2.1.trans h1.1, h2.2.1.trans h1.2.1, Nat.le_trans h1.2.2.1 h2.2.2.1, fun i hi => ?_⟩
  obtain ⟨p1, p2, p3⟩ := h1.2.2.2 i hi
  obtain ⟨q1, q2, q3⟩ := h2.2.2.2 i p1
  exact ⟨q1, q2.trans p2, q3.trans p3⟩

/-- A piece belongs to a batch of this kind and role. -/
def Of (g : Gen) (k : Kind) (r : Bool) (p : Piece) : Prop := ∃ hb : p.batch < g.batches.length, g.batches[p.batch].kind = k ∧ g.batches[p.batch].role = r

theorem Of.keep {g g' : Gen} {k : Kind} {r : Bool} {p : Piece} (h : Of g k r p) (hk : Keep g g') : Of g' k r p := by
  obtain ⟨h1, h2, h3⟩ := h
  obtain ⟨q1, q2, q3⟩ := hk.2.2.2 _ h1
  exact ⟨q1, q2.trans h2, q3.trans h3⟩

theorem carve_inv (k : Kind) (r : Bool) : ∀ (rem : Nat) (g : Gen) (L : List Piece), Inv g L → rem % 128 = 0 →
    ∃ ps g', carve g k r rem = .ok (ps, g') ∧ Inv g' (L ++ ps) ∧ Keep g g' ∧ (ps.map (·.size)).sum = rem ∧ (∀ p ∈ ps, Of g' k r p) ∧
      ps.length ≤ divCeil rem g.batchSize + 1 ∧ (g.cur k r = none → ps.length ≤ divCeil rem g.batchSize) := by
  intro rem
  induction rem using Nat.strongRecOn with
  | ind rem ih =>
    intro g L h hm
    by_cases h0 : rem = 0
    · subst h0
      refine ⟨[], g, by rw [carve]; rfl, by simpa using h, Keep.refl g, rfl, by simp, by simp, by simp⟩
    · obtain ⟨p, g1, e⟩ : ∃ p g1, carve1 g k r rem = (p, g1) := ⟨_, _, rfl⟩
      obtain ⟨i1, i2, i2', i3, i4, i5, i6, i7, i8, i9⟩ := carve1_inv h k r (by omega) hm e
      have hk1 : Keep g g1 := ⟨i2, i2', i8, i9⟩
      have hpm : p.size % 128 = 0 := (i1.led p (by simp)).2.1
      obtain ⟨ps, g2, c1, c2, c3, c4, c5, c6, c7⟩ := ih (rem - p.size) (by omega) g1 _ i1 (by omega)
      rw [i2] at c6 c7
      refine ⟨p :: ps, g2, ?_, by simpa using c2, hk1.trans c3, ?_, ?_, ?_, fun hn => ?_⟩
      · rw [carve, if_neg h0]
        simp only [e]
        rw [dif_neg (by omega), c1, ok_bind]
      · rw [List.map_cons, List.sum_cons, c4]
        omega
      · intro q hq
        rcases List.mem_cons.1 hq with rfl | hq
        · exact Of.keep i7 c3
        · exact c5 q hq
      · rw [List.length_cons]
        rcases Nat.lt_or_ge p.size rem with hlt | hge
        · have := c7 (i5 hlt).2
          have := divCeil_mono (B := g.batchSize) (show rem - p.size ≤ rem by omega)
          omega
        · rw [show rem - p.size = 0 by omega] at c1
          rw [carve] at c1
          simp only [if_true] at c1
          cases c1
          simp
      · rw [List.length_cons]
        rcases Nat.lt_or_ge p.size rem with hlt | hge
        · have h7 := c7 (i5 hlt).2
          have h6 := i6 hn
          have h5 := (i5 hlt).1
          have hp : p.size = g.batchSize := by omega
          rw [hp] at h7
          have := divCeil_sub h.pos (show g.batchSize < rem by omega)
          omega
        · rw [show rem - p.size = 0 by omega] at c1
          rw [carve] at c1
          simp only [if_true] at c1
          cases c1
          exact divCeil_pos h.pos (by omega)

theorem new_inv {party : Bool} {nc B : Nat} {g : Gen} (h : Gen.new party nc B = .ok g) (hB : B % 128 = 0) :
    Inv g [] ∧ g.batchSize = B ∧ g.party = party ∧ 2 ^ 10 ≤ B ∧ B ≤ 2 ^ 26 ∧ 0 < nc ∧ nc ≤ 2 ^ 10 ∧ g.batches = [] ∧ g.cur = fun _ _ => none := by
  unfold Gen.new at h
  simp only [throwIf] at h
  split at h
  · cases h
  rename_i h1
  rw [ok_bind] at h
  split at h
  · cases h
  rename_i h2
  rw [ok_bind] at h
  split at h
  · cases h
  rename_i h3
  rw [ok_bind] at h
  split at h
  · cases h
  rename_i h4
  rw [ok_bind] at h
  simp only [decide_eq_true_eq, beq_iff_eq] at h1 h2 h3 h4
  cases h
  refine ⟨⟨hB, by simp only; omega, by simp only; omega, by simp, by simp, by simp, by simp, List.Pairwise.nil⟩, rfl, rfl, by omega, by omega, by omega, by omega, rfl, rfl⟩

end Cor
end SecJoin
