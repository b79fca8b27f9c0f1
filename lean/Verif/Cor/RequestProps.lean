import Verif.Cor.RequestLemmas
import Mathlib.Data.List.Forall2
/-!
# Requests for correlations: C39, C40, C65
-/
namespace SecJoin
namespace Cor

theorem requests_inv : ∀ (rs : List (Kind × Bool × Nat)) (g : Gen) (L : List Piece), Inv g L →
    ∃ pss g', requests g rs = .ok (pss, g') ∧ Inv g' (L ++ pss.flatten) ∧ Keep g g' ∧
      List.Forall₂ (fun q ps => (ps.map Piece.size).sum = roundUp q.2.2 ∧ (∀ p ∈ ps, Of g' q.1 (roleOf g q.1 q.2.1) p) ∧
        ps.length ≤ batchCount g (roundUp q.2.2)) rs pss := by
  intro rs
  induction rs with
  | nil => exact fun g L h => ⟨[], g, rfl, by simpa using h, Keep.refl g, .nil⟩
  | cons q rs ih =>
    obtain ⟨k, s, n⟩ := q
    intro g L h
    obtain ⟨ps, g1, c1, c2, c3, c4, c5, c6, -⟩ := carve_inv k (roleOf g k s) (roundUp n) g L h (roundUp_mod n)
    obtain ⟨pss, g2, d1, d2, d3, d4⟩ := ih g1 _ c2
    refine ⟨ps :: pss, g2, ?_, by simpa [List.append_assoc] using d2, c3.trans d3, .cons ⟨c4, fun p hp => Of.keep (c5 p hp) d3, c6⟩ ?_⟩
    · rw [requests, request, c1, ok_bind]
      simp only
      rw [d1, ok_bind]
    · refine d4.imp fun q ps' hq => ?_
      have e : ∀ k s, roleOf g1 k s = roleOf g k s := fun k s => by rw [roleOf, roleOf, c3.2.1]
      have e2 : ∀ n, batchCount g1 n = batchCount g n := fun n => by rw [batchCount, batchCount, c3.1]
      rw [e, e2] at hq
      exact hq

/-! ## C39 -/

/-- What the pieces of a sequence of requests must look like. -/
structure Carved (B : Nat) (rs : List (Kind × Bool × Nat)) (pss : List (List Piece)) : Prop where
  /-- The pieces of each request add up to its size, rounded up. -/
  sum : List.Forall₂ (fun q ps => (ps.map Piece.size).sum = (q.2.2 + 127) / 128 * 128) rs pss
  /-- Pieces are whole blocks and inside their batch. -/
  fit : ∀ p ∈ pss.flatten, 0 < p.size ∧ p.size % 128 = 0 ∧ p.off % 128 = 0 ∧ p.off + p.size ≤ B
  /-- No two pieces overlap. -/
  disj : pss.flatten.Pairwise fun p q => p.batch ≠ q.batch ∨ p.off + p.size ≤ q.off ∨ q.off + q.size ≤ p.off

/-- C39, for batch sizes that are a multiple of 128, as the default: every sequence of requests is carved up, and each batch is
covered completely by its pieces; a piece comes from a batch of the right kind and role. Missing: other batch sizes, see
`C39_false`. -/
theorem C39_partial {party : Bool} {nc B : Nat} {g : Gen} (hg : Gen.new party nc B = .ok g) (hB : B % 128 = 0) (rs : List (Kind × Bool × Nat)) :
    ∃ pss g', requests g rs = .ok (pss, g') ∧ Carved B rs pss ∧
      (∀ b, (h : b < g'.batches.length) → ((pss.flatten.filter fun p => p.batch == b).map Piece.size).sum = g'.batches[b].size) ∧
      List.Forall₂ (fun q ps => ∀ p ∈ ps, ∃ h : p.batch < g'.batches.length, g'.batches[p.batch].kind = q.1 ∧
        g'.batches[p.batch].role = if q.1 = .ole then party else q.2.1) rs pss := by
  obtain ⟨h, e1, e2, -⟩ := new_inv hg hB
  obtain ⟨pss, g', r1, r2, r3, r4⟩ := requests_inv rs g [] h
  rw [List.nil_append] at r2
  refine ⟨pss, g', r1, ⟨r4.imp fun q ps hq => hq.1, fun p hp => ?_, r2.disj.imp fun hpq => ?_⟩, r2.sum, r4.imp fun q ps hq p hp => ?_⟩
  · obtain ⟨a1, a2, a3, a4, a5⟩ := r2.led p hp
    have := (r2.size p.batch a4).1
    rw [r3.1, e1] at this
    exact ⟨a1, a2, a3, by omega⟩
  · rename_i p q
    by_cases hb : p.batch = q.batch
    · exact .inr (.inl (hpq hb))
    · exact .inl hb
  · obtain ⟨b1, b2, b3⟩ := hq.2.1 p hp
    refine ⟨b1, b2, ?_⟩
    rw [b3, roleOf, e2]

/-- The configurations that are accepted. -/
theorem C39_new (party : Bool) (nc B : Nat) : (∃ g, Gen.new party nc B = .ok g) ↔ 2 ^ 10 ≤ B ∧ B ≤ 2 ^ 26 ∧ 1 ≤ nc ∧ nc ≤ 2 ^ 10 := by
  constructor
  · rintro ⟨g, h⟩
    unfold Gen.new at h
    simp only [throwIf] at h
    split at h
    · cases h
    rename_i h1
    rw [ok_bind] at h
    split at h
    · cases h
    rename_i h2
    rw [ok_bind] at h
    split at h
    · cases h
    rename_i h3
    rw [ok_bind] at h
    split at h
    · cases h
    rename_i h4
    simp only [decide_eq_true_eq, beq_iff_eq] at h1 h2 h3 h4
    omega
  · rintro ⟨h1, h2, h3, h4⟩
    refine ⟨⟨B, party, fun _ _ => none, []⟩, ?_⟩
    unfold Gen.new
    rw [decide_eq_false (by omega), decide_eq_false (by omega), show (nc == 0) = false by simp; omega, decide_eq_false (by omega)]
    rfl

/-- C39 is false for every accepted batch size that is not a multiple of 128: the first request of that size gets one piece that
is larger than the batch, and the batch stays open. -/
theorem C39_false {party : Bool} {nc B : Nat} {g : Gen} (hg : Gen.new party nc B = .ok g) (hB : B % 128 ≠ 0) (send : Bool) :
    ∃ p g', requests g [(.ot, send, B)] = .ok ([[p]], g') ∧ B < p.off + p.size ∧ g'.cur .ot send = some p.batch ∧
      ¬ Carved B [(.ot, send, B)] [[p]] := by
  have hnew := (C39_new party nc B).1 ⟨g, hg⟩
  have hge : g = ⟨B, party, fun _ _ => none, []⟩ := by
    unfold Gen.new at hg
    rw [decide_eq_false (by omega), decide_eq_false (by omega), show (nc == 0) = false by simp; omega, decide_eq_false (by omega)] at hg
    exact (Except.ok.inj hg).symm
  subst hge
  have hr : B < roundUp B := by unfold roundUp; omega
  have hs : sub64 B 0 = B := by rw [sub64_eq (by omega) (by omega)]; rfl
  have hmin : min (roundUp B) B = B := by omega
  have e1 : carve1 ⟨B, party, fun _ _ => none, []⟩ .ot send (roundUp B) =
      (⟨0, 0, roundUp B⟩, ⟨B, party, setCur (fun _ _ => none) .ot send (some 0), [⟨.ot, send, roundUp B⟩]⟩) := by
    simp only [carve1, pick]
    simp [hs, hmin, show ¬ B = roundUp B by omega]
  refine ⟨⟨0, 0, roundUp B⟩, ⟨B, party, setCur (fun _ _ => none) .ot send (some 0), [⟨.ot, send, roundUp B⟩]⟩, ?_, by simp only; omega, by simp [setCur], fun hc => ?_⟩
  · rw [requests, request, show roleOf ⟨B, party, fun _ _ => none, []⟩ .ot send = send from rfl, carve, if_neg (by omega)]
    simp only [e1]
    rw [dif_neg (by omega), Nat.sub_self, carve]
    rfl
  · have := (hc.fit ⟨0, 0, roundUp B⟩ (by simp)).2.2.2
    simp only at this
    omega

/-! ## C40 -/

/-- The other party: complementary roles everywhere. -/
def mirror (g : Gen) : Gen := ⟨g.batchSize, !g.party, fun k r => g.cur k (!r), g.batches.map fun b => { b with role := !b.role }⟩

/-- The same requests from the other side: receivers instead of senders. -/
def mirrorReq (q : Kind × Bool × Nat) : Kind × Bool × Nat := (q.1, !q.2.1, q.2.2)

theorem pick_mirror (g : Gen) (k : Kind) (r : Bool) : pick (mirror g) k (!r) = ((pick g k r).1, mirror (pick g k r).2) := by
  unfold pick
  have : (mirror g).cur k (!r) = g.cur k r := by simp [mirror]
  rw [this]
  split
  · rfl
  · simp only [mirror, List.length_map, List.map_append, List.map_cons, List.map_nil]
    congr 2
    funext k' r'
    simp only [setCur]
    cases r' <;> cases r <;> simp

theorem carve1_mirror (g : Gen) (k : Kind) (r : Bool) (rem : Nat) :
    carve1 (mirror g) k (!r) rem = ((carve1 g k r rem).1, mirror (carve1 g k r rem).2) := by
  unfold carve1
  rw [pick_mirror]
  obtain ⟨b, g1, e⟩ : ∃ b g1, pick g k r = (b, g1) := ⟨_, _, rfl⟩
  rw [e]
  have hs : ((mirror g1).batches.getD b ⟨k, !r, 0⟩).size = (g1.batches.getD b ⟨k, r, 0⟩).size := by
    simp only [mirror, List.getD_eq_getElem?_getD, List.getElem?_map]
    cases g1.batches[b]? <;> rfl
  have hb : (mirror g1).batchSize = g1.batchSize := rfl
  simp only [hs, hb]
  have hm : ∀ n, List.modify (mirror g1).batches b (fun x => { x with size := x.size + n }) =
      (List.modify g1.batches b fun x => { x with size := x.size + n }).map fun x => { x with role := !x.role } := by
    intro n
    simp only [mirror]
    refine List.ext_getElem? fun i => ?_
    simp only [List.getElem?_modify, List.getElem?_map]
    cases g1.batches[i]? with
    | none => simp
    | some x => by_cases h : b = i <;> simp [h]
  rw [hm]
  refine Prod.ext rfl ?_
  simp only
  split
  · simp only [mirror]
    congr 1
    funext k' r'
    simp only [setCur]
    cases r' <;> cases r <;> simp
  · simp only [mirror]

theorem carve_mirror (k : Kind) (r : Bool) : ∀ (rem : Nat) (g : Gen),
    carve (mirror g) k (!r) rem = (carve g k r rem).map fun x => (x.1, mirror x.2) := by
  intro rem
  induction rem using Nat.strongRecOn with
  | ind rem ih =>
    intro g
    rw [carve, carve]
    by_cases h0 : rem = 0
    · rw [if_pos h0, if_pos h0]
      rfl
    · rw [if_neg h0, if_neg h0, carve1_mirror]
      simp only
      by_cases hz : (carve1 g k r rem).1.size = 0
      · rw [dif_pos hz, dif_pos hz]
        rfl
      · rw [dif_neg hz, dif_neg hz, ih _ (by omega)]
        cases carve (carve1 g k r rem).2 k r (rem - (carve1 g k r rem).1.size) <;> rfl

/-- C40: mirrored requests get the same pieces, and the two parties' batches mirror each other afterwards. This needs no
condition on the sizes. -/
theorem C40_mirror : ∀ (rs : List (Kind × Bool × Nat)) (g : Gen),
    requests (mirror g) (rs.map mirrorReq) = (requests g rs).map fun x => (x.1, mirror x.2) := by
  intro rs
  induction rs with
  | nil => exact fun g => rfl
  | cons q rs ih =>
    obtain ⟨k, s, n⟩ := q
    intro g
    have hr : roleOf (mirror g) k (!s) = !roleOf g k s := by
      unfold roleOf
      split <;> rfl
    rw [List.map_cons, mirrorReq, requests, requests, request, request, hr, carve_mirror]
    cases carve g k (roleOf g k s) (roundUp n) with
    | error e => rfl
    | ok x =>
      obtain ⟨ps, g1⟩ := x
      show (do let (pss, g) ← requests (mirror g1) (rs.map mirrorReq); Except.ok (ps :: pss, g)) = _
      rw [ih]
      show _ = Except.map _ (do let (pss, g) ← requests g1 rs; Except.ok (ps :: pss, g))
      cases requests g1 rs <;> rfl

/-- C40: for two parties that start from the same configuration, piece by piece. -/
theorem C40_pieces {nc nc' B : Nat} {g0 g1 : Gen} (h0 : Gen.new false nc B = .ok g0) (h1 : Gen.new true nc' B = .ok g1)
    (rs : List (Kind × Bool × Nat)) {pss : List (List Piece)} {g0' : Gen} (h : requests g0 rs = .ok (pss, g0')) :
    ∃ g1', requests g1 (rs.map mirrorReq) = .ok (pss, g1') ∧ g1'.batches.length = g0'.batches.length ∧
      ∀ b, (hb : b < g0'.batches.length) → ∃ hb' : b < g1'.batches.length, g1'.batches[b].kind = g0'.batches[b].kind ∧
        g1'.batches[b].role = !g0'.batches[b].role ∧ g1'.batches[b].size = g0'.batches[b].size := by
  have n0 := (C39_new false nc B).1 ⟨g0, h0⟩
  have n1 := (C39_new true nc' B).1 ⟨g1, h1⟩
  have new_eq : ∀ {p nc g}, Gen.new p nc B = .ok g → 1 ≤ nc → nc ≤ 2 ^ 10 → g = ⟨B, p, fun _ _ => none, []⟩ := by
    intro p nc g hg a b
    unfold Gen.new at hg
    rw [decide_eq_false (by omega), decide_eq_false (by omega), show (nc == 0) = false by simp; omega, decide_eq_false (by omega)] at hg
    exact (Except.ok.inj hg).symm
  have e : g1 = mirror g0 := by
    rw [new_eq h0 n0.2.2.1 n0.2.2.2, new_eq h1 n1.2.2.1 n1.2.2.2]
    rfl
  refine ⟨mirror g0', ?_, by simp [mirror], fun b hb => ⟨by simpa [mirror] using hb, ?_⟩⟩
  · rw [e, C40_mirror, h]
    rfl
  · simp [mirror]

/-! ## C65 -/

/-- C65: a request never has more pieces than announced. -/
theorem C65_batchCount {party : Bool} {nc B : Nat} {g : Gen} (hg : Gen.new party nc B = .ok g) (hB : B % 128 = 0) (rs : List (Kind × Bool × Nat))
    {pss : List (List Piece)} {g' : Gen} (h : requests g rs = .ok (pss, g')) :
    List.Forall₂ (fun q ps => ps.length ≤ batchCount g' ((q.2.2 + 127) / 128 * 128)) rs pss := by
  obtain ⟨hi, -⟩ := new_inv hg hB
  obtain ⟨pss', g2, r1, r2, r3, r4⟩ := requests_inv rs g [] hi
  rw [h] at r1
  cases r1
  refine r4.imp fun q ps hq => ?_
  have := hq.2.2
  rw [batchCount] at this ⊢
  rw [r3.1]
  exact this

/-- A batch that is not full is the one that is being filled. -/
def Tight (g : Gen) : Prop := ∀ (b : Nat) (h : b < g.batches.length), g.batches[b].size = g.batchSize ∨ g.cur g.batches[b].kind g.batches[b].role = some b

theorem pick_tight {g : Gen} (h : Tight g) (k : Kind) (r : Bool) : Tight (pick g k r).2 := by
  unfold pick
  cases hc : g.cur k r with
  | some b => exact h
  | none =>
    intro b hb
    simp only [List.length_append, List.length_singleton] at hb
    by_cases hlt : b < g.batches.length
    · simp only [List.getElem_append_left hlt]
      rcases h b hlt with h1 | h1
      · exact .inl h1
      · right
        unfold setCur
        rw [if_neg, h1]
        rintro ⟨e1, e2⟩
        rw [e1, e2, hc] at h1
        cases h1
    · have : b = g.batches.length := by omega
      subst this
      right
      simp [setCur]

theorem carve1_tight {g : Gen} {L : List Piece} (hi : Inv g L) (h : Tight g) (k : Kind) (r : Bool) (rem : Nat) : Tight (carve1 g k r rem).2 := by
  obtain ⟨b, g1, e⟩ : ∃ b g1, pick g k r = (b, g1) := ⟨_, _, rfl⟩
  have h1 : Tight g1 := by
    have := pick_tight h k r
    rwa [e] at this
  obtain ⟨i1, -, -, e2, -⟩ := pick_inv hi k r e
  obtain ⟨hb, c1, c2, c3⟩ := i1.cur k r b e2
  have hg : g1.batches.getD b ⟨k, r, 0⟩ = g1.batches[b] := by simp [List.getD_eq_getElem?_getD, hb]
  unfold carve1
  rw [e]
  simp only [hg]
  rw [sub64_eq (by omega) i1.lt]
  generalize roundUp (min rem (g1.batchSize - g1.batches[b].size)) = n
  have other : ∀ i (hi : i < g1.batches.length), i ≠ b → g1.batches[i].size = g1.batchSize ∨
      g1.cur g1.batches[i].kind g1.batches[i].role = some i ∧ ¬ (g1.batches[i].kind = k ∧ g1.batches[i].role = r) := by
    intro i hil hne
    rcases h1 i hil with h2 | h2
    · exact .inl h2
    · refine .inr ⟨h2, ?_⟩
      rintro ⟨a1, a2⟩
      rw [a1, a2, e2] at h2
      exact hne (Option.some.inj h2).symm
  split
  · rename_i hf
    intro i hil
    simp only [List.length_modify] at hil
    simp only [List.getElem_modify]
    by_cases hib : b = i
    · subst hib
      left
      simp only [if_true]
      omega
    · rw [if_neg hib]
      rcases other i hil (Ne.symm hib) with h2 | ⟨h2, h3⟩
      · exact .inl h2
      · right
        unfold setCur
        rw [if_neg h3]
        exact h2
  · intro i hil
    simp only [List.length_modify] at hil
    simp only [List.getElem_modify]
    by_cases hib : b = i
    · subst hib
      right
      simp only [if_true]
      rw [c1, c2]
      exact e2
    · rw [if_neg hib]
      rcases other i hil (Ne.symm hib) with h2 | ⟨h2, -⟩
      · exact .inl h2
      · exact .inr h2

theorem carve_tight (k : Kind) (r : Bool) : ∀ (rem : Nat) (g : Gen) (L : List Piece), Inv g L → rem % 128 = 0 → Tight g →
    ∀ ps g', carve g k r rem = .ok (ps, g') → Tight g' := by
  intro rem
  induction rem using Nat.strongRecOn with
  | ind rem ih =>
    intro g L hi hm ht ps g' hc
    rw [carve] at hc
    by_cases h0 : rem = 0
    · rw [if_pos h0] at hc
      cases hc
      exact ht
    · rw [if_neg h0] at hc
      obtain ⟨p, g1, e⟩ : ∃ p g1, carve1 g k r rem = (p, g1) := ⟨_, _, rfl⟩
      obtain ⟨i1, -, -, i3, i4, -⟩ := carve1_inv hi k r (by omega) hm e
      have t1 : Tight g1 := by
        have := carve1_tight hi ht k r rem
        rwa [e] at this
      rw [e] at hc
      simp only at hc
      rw [dif_neg (by omega)] at hc
      cases hr : carve g1 k r (rem - p.size) with
      | error _ => rw [hr] at hc; cases hc
      | ok x =>
        obtain ⟨ps', g2⟩ := x
        rw [hr] at hc
        cases hc
        have hp := (i1.led p (by simp)).2.1
        exact ih _ (by omega) g1 _ i1 (by omega) t1 _ _ hr

theorem requests_tight : ∀ (rs : List (Kind × Bool × Nat)) (g : Gen) (L : List Piece), Inv g L → Tight g →
    ∀ pss g', requests g rs = .ok (pss, g') → Tight g' := by
  intro rs
  induction rs with
  | nil =>
    intro g L _ ht pss g' h
    cases h
    exact ht
  | cons q rs ih =>
    obtain ⟨k, s, n⟩ := q
    intro g L hi ht pss g' h
    obtain ⟨ps, g1, c1, c2, -⟩ := carve_inv k (roleOf g k s) (roundUp n) g L hi (roundUp_mod n)
    have t1 := carve_tight k (roleOf g k s) _ g L hi (roundUp_mod n) ht _ _ c1
    rw [requests, request, c1, ok_bind] at h
    simp only at h
    cases hr : requests g1 rs with
    | error _ => rw [hr] at h; cases h
    | ok x =>
      obtain ⟨pss', g2⟩ := x
      rw [hr] at h
      cases h
      exact ih g1 _ c2 t1 _ _ hr

/-- C65: nothing is wasted. Of the batches of one kind and role at most one is not filled completely. -/
theorem C65_no_waste {party : Bool} {nc B : Nat} {g : Gen} (hg : Gen.new party nc B = .ok g) (hB : B % 128 = 0) (rs : List (Kind × Bool × Nat))
    {pss : List (List Piece)} {g' : Gen} (h : requests g rs = .ok (pss, g')) (b b' : Nat) (hb : b < g'.batches.length) (hb' : b' < g'.batches.length)
    (hne : b ≠ b') (hk : g'.batches[b].kind = g'.batches[b'].kind) (hr : g'.batches[b].role = g'.batches[b'].role) :
    g'.batches[b].size = B ∨ g'.batches[b'].size = B := by
  obtain ⟨hi, e0, -, -, -, -, -, e1, -⟩ := new_inv hg hB
  obtain ⟨pss', g2, r1, -, r3, -⟩ := requests_inv rs g [] hi
  rw [h] at r1
  cases r1
  have t : Tight g := by
    intro b hb
    rw [e1] at hb
    exact absurd hb (by simp)
  have ht := requests_tight rs g [] hi t _ _ h
  have eB : g'.batchSize = B := r3.1.trans e0
  rcases ht b hb with h1 | h1
  · exact .inl (h1.trans eB)
  · rcases ht b' hb' with h2 | h2
    · exact .inr (h2.trans eB)
    · rw [hk, hr, h2] at h1
      exact absurd (Option.some.inj h1).symm hne

/-! ## Cases that meet the hypotheses -/

example : ∃ g, Gen.new true 4 (2 ^ 16) = .ok g := (C39_new true 4 (2 ^ 16)).2 (by decide)
example : 2 ^ 16 % 128 = 0 ∧ 1100 % 128 ≠ 0 := by decide
example : ∃ g, Gen.new false 1 1100 = .ok g := (C39_new false 1 1100).2 (by decide)

end Cor
end SecJoin
