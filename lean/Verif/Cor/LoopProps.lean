import Verif.Cor.Loop
import Mathlib.Data.List.Perm.Subperm
import Mathlib.Data.List.Induction
/-!
# The generator's main loop: C42
-/
namespace SecJoin
namespace Cor

/-! ## What is asked of a trace -/

/-- The tasks running after a trace. -/
def running : List Ev → List Nat := List.foldl (fun l e => match e with | .launch i => i :: l | .await i => l.erase i | .drop _ => l) []

def launches (tr : List Ev) : List Nat := tr.filterMap fun | .launch i => some i | _ => none
def awaits (tr : List Ev) : List Nat := tr.filterMap fun | .await i => some i | _ => none
def drops (tr : List Ev) : List Nat := tr.filterMap fun | .drop i => some i | _ => none

/-- What must hold when an event comes after `p`: a task is launched once, when fewer than `nc` are running; only launched tasks are
awaited; a batch is dropped only after its task has been awaited, if it had one. -/
def EvOk (nc : Nat) (aborted : Nat → Bool) (p : List Ev) : Ev → Prop
  | .launch i => (running p).length < nc ∧ .launch i ∉ p
  | .await i => .launch i ∈ p
  | .drop j => aborted j = false → .await j ∈ p

def TraceOk (nc : Nat) (aborted : Nat → Bool) (tr : List Ev) : Prop := ∀ p e, p ++ [e] <+: tr → EvOk nc aborted p e

/-! ## Proof -/

theorem running_snoc (p : List Ev) (e : Ev) : running (p ++ [e]) =
    match e with | .launch i => i :: running p | .await i => (running p).erase i | .drop _ => running p := by
  simp [running]

theorem TraceOk.snoc {nc : Nat} {ab : Nat → Bool} {tr : List Ev} (h : TraceOk nc ab tr) {e : Ev} (he : EvOk nc ab tr e) :
    TraceOk nc ab (tr ++ [e]) := by
  intro p e' hp
  rcases List.prefix_concat_iff.1 (by simpa using hp) with hp | hp
  · have := List.append_inj' hp rfl
    obtain ⟨rfl, h2⟩ := this
    cases h2
    exact he
  · exact h p e' hp

/-- The state before round `k`: launches of batches below `k`, awaits of batches below `w`. -/
structure LInv (nb nc : Nat) (ab : Nat → Bool) (k w : Nat) (s : LSt) : Prop where
  len : s.slots.length = nc
  slot : ∀ r (hr : r < s.slots.length), match s.slots[r] with
    | some t => t < k ∧ t < nb ∧ ab t = false ∧ t % nc = r ∧ ∀ t', t < t' → t' < k → t' < nb → t' % nc = r → ab t' = true
    | none => ∀ t', t' < k → t' < nb → t' % nc = r → ab t' = true
  live : ∀ t, t ∈ s.live ↔ (t < k ∧ t < nb ∧ ab t = false ∧ w ≤ t)
  nodup : s.live.Nodup
  run : running s.trace = s.live
  launch : launches s.trace = (List.range (min k nb)).filter fun i => !ab i
  drop : drops s.trace = List.range (min w nb)
  wait : (∀ i, ab i = false) → awaits s.trace = List.range (min w nb)
  ok : TraceOk nc ab s.trace

theorem mem_launches {tr : List Ev} {i : Nat} : i ∈ launches tr ↔ .launch i ∈ tr := by
  simp only [launches, List.mem_filterMap]
  constructor
  · rintro ⟨e, he, h⟩
    cases e <;> simp at h
    subst h
    exact he
  · exact fun h => ⟨_, h, rfl⟩

theorem mod_window {a b nc : Nat} (h1 : a % nc = b % nc) (h2 : a < b) : a + nc ≤ b := by
  have h3 : (b - a) % nc = 0 := (Nat.sub_mod_eq_zero_of_mod_eq h1.symm)
  have := Nat.le_of_dvd (by omega) (Nat.dvd_of_mod_eq_zero h3)
  omega

theorem launch_inv {nb nc : Nat} {ab : Nat → Bool} {k : Nat} {s : LSt} (h0 : 0 < nc) (h : LInv nb nc ab k (k - (nc - 1)) s) :
    ∃ s', Cor.launch nb nc ab k s = .ok s' ∧ LInv nb nc ab (k + 1) (k - (nc - 1)) s' := by
  unfold Cor.launch
  by_cases hk : k < nb ∧ ab k = false
  · rw [if_pos hk]
    have hr : k % nc < s.slots.length := by rw [h.len]; exact Nat.mod_lt _ h0
    have hs := h.slot _ hr
    have hnew : LInv nb nc ab (k + 1) (k - (nc - 1)) ⟨s.slots.set (k % nc) (some k), k :: s.live, s.trace ++ [.launch k]⟩ := by
      have hlt : s.live.length < nc := by
        have hsub : s.live ⊆ List.range' (k - (nc - 1)) (min k (nc - 1)) := by
          intro t ht
          have := (h.live t).1 ht
          rw [List.mem_range'_1]
          omega
        have := (List.subperm_of_subset h.nodup hsub).length_le
        rw [List.length_range'] at this
        omega
      have hnl : Ev.launch k ∉ s.trace := by
        rw [← mem_launches, h.launch, List.mem_filter, List.mem_range]
        omega
      have hnm : k ∉ s.live := fun hm => by have := ((h.live k).1 hm).1; omega
      refine ⟨by simp [h.len], ?_, ?_, List.nodup_cons.2 ⟨hnm, h.nodup⟩, ?_, ?_, ?_, ?_, ?_⟩
      · intro r hr'
        simp only [List.length_set] at hr'
        simp only [List.getElem_set]
        by_cases hrk : k % nc = r
        · rw [if_pos hrk]
          simp only
          exact ⟨by omega, hk.1, hk.2, hrk, fun t' a b => by omega⟩
        · rw [if_neg hrk]
          have := h.slot r hr'
          split <;> rename_i e <;> rw [e] at this <;> simp only at this
          · refine ⟨by omega, this.2.1, this.2.2.1, this.2.2.2.1, fun t' a b c d => this.2.2.2.2 t' a ?_ c d⟩
            have : t' ≠ k := fun e => hrk (e ▸ d)
            omega
          · refine fun t' b c d => this t' ?_ c d
            have : t' ≠ k := fun e => hrk (e ▸ d)
            omega
      · intro t
        rw [List.mem_cons, h.live]
        constructor
        · rintro (rfl | hh)
          · exact ⟨by omega, hk.1, hk.2, by omega⟩
          · exact ⟨by omega, hh.2⟩
        · rintro ⟨a, b⟩
          by_cases ht : t = k
          · exact .inl ht
          · exact .inr ⟨by omega, b⟩
      · rw [running_snoc]
        simp only [h.run]
      · have e1 : min (k + 1) nb = min k nb + 1 := by omega
        have e2 : min k nb = k := by omega
        have hl := h.launch
        rw [e2] at hl
        rw [e1, e2]
        simp only [launches, List.filterMap_append] at hl ⊢
        rw [hl, List.range_succ, List.filter_append]
        simp [hk.2]
      · have := h.drop
        simp only [drops, List.filterMap_append] at this ⊢
        simpa using this
      · intro hab
        have := h.wait hab
        simp only [awaits, List.filterMap_append] at this ⊢
        simpa using this
      · exact h.ok.snoc ⟨by rw [h.run]; exact hlt, hnl⟩
    rw [rd_ok hr, ok_bind]
    cases hsl : s.slots[k % nc] with
    | none => exact ⟨_, rfl, hnew⟩
    | some t =>
      rw [hsl] at hs
      simp only at hs ⊢
      have hwin := mod_window (a := t) (b := k) (nc := nc) hs.2.2.2.1 hs.1
      have : t ∉ s.live := by
        rw [h.live]
        omega
      rw [if_neg this]
      exact ⟨_, rfl, hnew⟩
  · rw [if_neg hk]
    have hk' : k < nb → ab k = true := fun h1 => by
      cases h2 : ab k
      · exact absurd ⟨h1, h2⟩ hk
      · rfl
    refine ⟨s, rfl, h.len, ?_, ?_, h.nodup, h.run, ?_, h.drop, h.wait, h.ok⟩
    · intro r hr
      have := h.slot r hr
      split <;> rename_i e <;> rw [e] at this <;> simp only at this
      · refine ⟨by omega, this.2.1, this.2.2.1, this.2.2.2.1, fun t' a b c d => ?_⟩
        by_cases ht : t' = k
        · rw [ht] at c ⊢; exact hk' c
        · exact this.2.2.2.2 t' a (by omega) c d
      · intro t' b c d
        by_cases ht : t' = k
        · rw [ht] at c ⊢; exact hk' c
        · exact this t' (by omega) c d
    · intro t
      rw [h.live]
      constructor
      · rintro ⟨a, b⟩; exact ⟨by omega, b⟩
      · rintro ⟨a, b, c, d⟩
        refine ⟨?_, b, c, d⟩
        by_cases ht : t = k
        · rw [ht] at b c
          rw [hk' b] at c
          cases c
        · omega
    · rw [h.launch]
      by_cases hkn : k < nb
      · have e1 : min (k + 1) nb = k + 1 := by omega
        have e2 : min k nb = k := by omega
        rw [e1, e2, List.range_succ, List.filter_append]
        simp [hk' hkn]
      · have e1 : min (k + 1) nb = min k nb := by omega
        rw [e1]

theorem join_skip {nb nc : Nat} {ab : Nat → Bool} {k : Nat} {s : LSt} (h : LInv nb nc ab (k + 1) (k - (nc - 1)) s) (hk : k + 1 ≤ nc - 1) :
    LInv nb nc ab (k + 1) (k + 1 - (nc - 1)) s := by
  have : k + 1 - (nc - 1) = k - (nc - 1) := by omega
  rw [this]
  exact h

theorem join_inv {nb nc : Nat} {ab : Nat → Bool} {j : Nat} {s : LSt} (h0 : 0 < nc) (h : LInv nb nc ab (j + (nc - 1) + 1) j s) (hj : j < nb) :
    ∃ s', Cor.join nb nc j s = .ok s' ∧ LInv nb nc ab (j + (nc - 1) + 1) (j + 1) s' := by
  unfold Cor.join
  rw [if_pos hj]
  have hr : j % nc < s.slots.length := by rw [h.len]; exact Nat.mod_lt _ h0
  have hs := h.slot _ hr
  have e1 : min (j + 1) nb = j + 1 := by omega
  have e2 : min j nb = j := by omega
  have hd := h.drop
  have hw := h.wait
  rw [e2] at hd hw
  rw [rd_ok hr, ok_bind]
  cases hsl : s.slots[j % nc] with
  | none =>
    rw [hsl] at hs
    simp only at hs ⊢
    have hab := hs j (by omega) hj rfl
    refine ⟨_, rfl, h.len, h.slot, ?_, h.nodup, ?_, ?_, ?_, ?_, ?_⟩
    · intro t
      rw [h.live]
      constructor
      · rintro ⟨a, b, c, d⟩
        refine ⟨a, b, c, ?_⟩
        have : t ≠ j := fun e => by rw [e, hab] at c; cases c
        omega
      · rintro ⟨a, b, c, d⟩; exact ⟨a, b, c, by omega⟩
    · rw [running_snoc]; exact h.run
    · have := h.launch
      simp only [launches, List.filterMap_append] at this ⊢
      simpa using this
    · rw [e1, List.range_succ, ← hd]
      simp [drops]
    · intro hall
      rw [hall j] at hab
      cases hab
    · exact h.ok.snoc fun hh => by rw [hab] at hh; cases hh
  | some t =>
    rw [hsl] at hs
    simp only at hs ⊢
    obtain ⟨s1, s2, s3, s4, s5⟩ := hs
    have htj : t ≤ j := by
      rcases Nat.lt_or_ge j t with hlt | hge
      · have := mod_window (a := j) (b := t) (nc := nc) (by omega) hlt
        omega
      · exact hge
    have hlt : Ev.launch t ∈ s.trace := by
      rw [← mem_launches, h.launch, List.mem_filter, List.mem_range]
      exact ⟨by omega, by simp [s3]⟩
    have htr : s.trace ++ [.await t, .drop j] = (s.trace ++ [.await t]) ++ [.drop j] := by simp
    have hreal : ab j = false → t = j := by
      intro hab
      by_cases he : t = j
      · exact he
      · have := s5 j (by omega) (by omega) hj rfl
        rw [hab] at this
        cases this
    refine ⟨_, rfl, h.len, h.slot, ?_, h.nodup.erase _, ?_, ?_, ?_, ?_, ?_⟩
    · intro t'
      simp only
      rw [h.nodup.mem_erase_iff, h.live]
      constructor
      · rintro ⟨n, a, b, c, d⟩
        refine ⟨a, b, c, ?_⟩
        have : t' ≠ j := fun e => by
          rw [e] at c n
          exact n (hreal c).symm
        omega
      · rintro ⟨a, b, c, d⟩
        exact ⟨by omega, a, b, c, by omega⟩
    · rw [htr, running_snoc, running_snoc]
      simp only [h.run]
    · have := h.launch
      simp only [launches, List.filterMap_append] at this ⊢
      simpa using this
    · rw [e1, List.range_succ, ← hd]
      simp [drops]
    · intro hall
      rw [e1, List.range_succ, ← hw hall]
      simp [awaits, hreal (hall j)]
    · rw [htr]
      refine (h.ok.snoc (e := .await t) hlt).snoc fun hab => ?_
      rw [hreal hab]
      simp

theorem loop_inv {nb nc : Nat} {ab : Nat → Bool} (h0 : 0 < nc) (hN : nb + nc < 2 ^ 64) (m : Nat) : ∀ (fuel k : Nat) (s : LSt),
    m + 1 ≤ fuel → k + m = nb + (nc - 1) → LInv nb nc ab k (k - (nc - 1)) s →
    ∃ s', loop nb nc ab fuel k ((2 ^ 64 - nc + 1 + k) % 2 ^ 64) s = .ok s' ∧ LInv nb nc ab (nb + (nc - 1)) nb s' := by
  induction m with
  | zero =>
    intro fuel k s hf hk h
    obtain ⟨fuel, rfl⟩ : ∃ f, fuel = f + 1 := ⟨fuel - 1, by omega⟩
    have hj : (2 ^ 64 - nc + 1 + k) % 2 ^ 64 = nb := by omega
    rw [hj, loop, if_pos rfl]
    refine ⟨s, rfl, ?_⟩
    have : k = nb + (nc - 1) := by omega
    subst this
    rw [Nat.add_sub_cancel] at h
    exact h
  | succ m ih =>
    intro fuel k s hf hk h
    obtain ⟨fuel, rfl⟩ : ∃ f, fuel = f + 1 := ⟨fuel - 1, by omega⟩
    have hne : (2 ^ 64 - nc + 1 + k) % 2 ^ 64 ≠ nb := by omega
    have hi : (k + 1) % 2 ^ 64 = k + 1 := Nat.mod_eq_of_lt (by omega)
    have hj : ((2 ^ 64 - nc + 1 + k) % 2 ^ 64 + 1) % 2 ^ 64 = (2 ^ 64 - nc + 1 + (k + 1)) % 2 ^ 64 := by omega
    rw [loop, if_neg hne, hi, hj]
    obtain ⟨s1, e1, h1⟩ := launch_inv h0 h
    rw [e1, ok_bind]
    by_cases hk2 : k + 1 ≤ nc - 1
    · have : ¬ (2 ^ 64 - nc + 1 + k) % 2 ^ 64 < nb := by omega
      rw [Cor.join, if_neg this, ok_bind]
      exact ih fuel (k + 1) s1 (by omega) (by omega) (join_skip h1 hk2)
    · obtain ⟨j, hjk⟩ : ∃ j, k = j + (nc - 1) := ⟨k - (nc - 1), by omega⟩
      have hjj : (2 ^ 64 - nc + 1 + k) % 2 ^ 64 = j := by omega
      rw [hjj]
      rw [hjk, Nat.add_sub_cancel] at h1
      obtain ⟨s2, e2, h2⟩ := join_inv h0 h1 (by omega)
      rw [e2, ok_bind]
      refine ih fuel (k + 1) s2 (by omega) (by omega) ?_
      have : k + 1 - (nc - 1) = j + 1 := by omega
      rw [this, hjk]
      exact h2

/-- C42, for every number of batches and every concurrency the constructor accepts, whatever batches are aborted: the loop ends, no slot
with a running task is overwritten, the batches that were not aborted are launched in order, each once and with fewer than `nc` running,
a task is awaited only after it was launched and before its batch is dropped, all batches are dropped in order, and nothing is left
running. If none was aborted each task is awaited exactly once. -/
theorem C42_partial {nb nc : Nat} (ab : Nat → Bool) (h0 : 0 < nc) (hN : nb + nc < 2 ^ 64) :
    ∃ s, genLoop nb nc ab = .ok s ∧ TraceOk nc ab s.trace ∧ launches s.trace = (List.range nb).filter (fun i => !ab i) ∧
      drops s.trace = List.range nb ∧ running s.trace = [] ∧ ((∀ i, ab i = false) → awaits s.trace = List.range nb) := by
  have hini : LInv nb nc ab 0 (0 - (nc - 1)) ⟨List.replicate nc none, [], []⟩ := by
    refine ⟨by simp, ?_, by simp, .nil, rfl, by simp [launches], by simp [drops], fun _ => by simp [awaits], ?_⟩
    · intro r hr
      simp
    · intro p e hp
      have := hp.length_le
      simp at this
  obtain ⟨s, e, h⟩ := loop_inv h0 hN (nb + (nc - 1)) (2 ^ 64 + 1) 0 _ (by omega) (by omega) hini
  refine ⟨s, e, h.ok, ?_, ?_, ?_, ?_⟩
  · rw [h.launch, Nat.min_eq_right (by omega)]
  · rw [h.drop, Nat.min_self]
  · rw [h.run, List.eq_nil_iff_forall_not_mem]
    intro t ht
    have := (h.live t).1 ht
    omega
  · intro hall
    rw [h.wait hall, Nat.min_self]

/-- From `TraceOk` to the number of running tasks at any time. -/
theorem C42_bound {nc : Nat} {ab : Nat → Bool} {tr : List Ev} (h : TraceOk nc ab tr) : ∀ p, p <+: tr → (running p).length ≤ nc := by
  intro p
  induction p using List.reverseRecOn with
  | nil => exact fun _ => Nat.zero_le _
  | append_singleton p e ih =>
    intro hp
    have hp' := ih ((List.prefix_append p [e]).trans hp)
    have he := h p e hp
    rw [running_snoc]
    cases e with
    | launch i => exact he.1
    | await i => exact Nat.le_trans (List.length_erase_le) hp'
    | drop j => exact hp'

/-- C42 is false with aborted batches: the finished task of batch 0 is awaited a second time in place of that of the aborted batch 1. -/
theorem C42_false : ∃ s, genLoop 2 1 (fun i => i == 1) = .ok s ∧ awaits s.trace = [0, 0] := by
  have h : ∀ f, loop 2 1 (fun i => i == 1) (f + 3) 0 0 ⟨List.replicate 1 none, [], []⟩ =
      .ok ⟨[some 0], [], [.launch 0, .await 0, .drop 0, .await 0, .drop 1]⟩ := fun f => rfl
  obtain ⟨f, hf⟩ : ∃ f, 2 ^ 64 + 1 = f + 3 := ⟨2 ^ 64 - 2, by omega⟩
  have hj : (2 ^ 64 - 1 + 1) % 2 ^ 64 = 0 := by omega
  refine ⟨⟨[some 0], [], [.launch 0, .await 0, .drop 0, .await 0, .drop 1]⟩, ?_, rfl⟩
  rw [genLoop, hf, hj]
  exact h f

/-- The hypotheses of `C42_partial`: five batches, two at a time, the third aborted. -/
example : 0 < 2 ∧ 5 + 2 < 2 ^ 64 := by decide

end Cor
end SecJoin
