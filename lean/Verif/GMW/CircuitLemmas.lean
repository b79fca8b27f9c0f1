import Verif.GMW.Circuit
import Verif.GMW.Level
/-!
# Lemmas about the circuits built by the code
-/
namespace SecJoin
namespace Gmw

theorem evalOps_append (xs ys : List Op) (v : Nat → Bool) : evalOps (xs ++ ys) v = evalOps ys (evalOps xs v) := by
  induction xs generalizing v with
  | nil => rfl
  | cons x xs ih => simp only [List.cons_append, evalOps, ih]

theorem evalOps_inv (n : Nat) (v : Nat → Bool) (i : Nat) :
    evalOps ((List.range n).map fun i => .inv i) v i = if i < n then !(v i) else v i := by
  induction n generalizing i with
  | zero => simp [evalOps]
  | succ n ih =>
    rw [List.range_succ, List.map_append, evalOps_append]
    simp only [List.map_cons, List.map_nil, evalOps, Op.eval]
    rw [ih]
    by_cases h : i = n
    · subst h; simp
    · rw [if_neg h]
      by_cases h2 : i < n
      · rw [if_pos h2, if_pos (by omega)]
      · rw [if_neg h2, if_neg (by omega)]

open Classical in
theorem andPairs_eval {bits step : Nat} (hs : 0 < step) : ∀ (fuel q : Nat) (v : Nat → Bool) (w : Nat),
    bits ≤ fuel + step * 2 * q →
    evalOps (andPairs bits step fuel (step * 2 * q)) v w =
      if (∃ r, w = step * 2 * r ∧ q ≤ r) ∧ w + step < bits then v w && v (w + step) else v w := by
  intro fuel
  induction fuel with
  | zero =>
    intro q v w hf
    simp only [andPairs, evalOps]
    rw [if_neg]
    rintro ⟨⟨r, rfl, hr⟩, h⟩
    have := Nat.mul_le_mul_left (step * 2) hr
    omega
  | succ fuel ih =>
    intro q v w hf
    rw [andPairs]
    by_cases hc : step * 2 * q + step < bits
    · rw [if_pos hc]
      simp only [evalOps, Op.eval]
      have e : step * 2 * q + step * 2 = step * 2 * (q + 1) := by rw [Nat.mul_add, Nat.mul_one]
      rw [e, ih (q + 1) _ w (by rw [← e]; omega)]
      by_cases hw : ∃ r, w = step * 2 * r ∧ q ≤ r
      · obtain ⟨r, hw, hr⟩ := hw
        by_cases hqr : r = q
        · subst hqr
          rw [if_neg, if_pos ⟨⟨r, hw, Nat.le_refl _⟩, by omega⟩]
          · simp only [evalGate, hw, if_true, table]
          · rintro ⟨⟨r', h, hr'⟩, _⟩
            have h2 : step * 2 * r = step * 2 * r' := by omega
            have := Nat.eq_of_mul_eq_mul_left (by omega : 0 < step * 2) h2
            omega
        · have hm := Nat.mul_le_mul_left (step * 2) (show q + 1 ≤ r by omega)
          rw [← e] at hm
          have n1 : w ≠ step * 2 * q := by omega
          have n2 : w + step ≠ step * 2 * q := by omega
          simp only [evalGate, if_neg n1, if_neg n2]
          by_cases hb : w + step < bits
          · rw [if_pos ⟨⟨r, hw, by omega⟩, hb⟩, if_pos ⟨⟨r, hw, by omega⟩, hb⟩]
          · rw [if_neg (fun h => hb h.2), if_neg (fun h => hb h.2)]
      · rw [if_neg, if_neg (fun h => hw h.1)]
        · have : w ≠ step * 2 * q := fun h => hw ⟨q, h, Nat.le_refl _⟩
          simp only [evalGate, if_neg this]
        · rintro ⟨⟨r, h, hr⟩, _⟩
          exact hw ⟨r, h, by omega⟩
    · rw [if_neg hc]
      simp only [evalOps]
      rw [if_neg]
      rintro ⟨⟨r, rfl, hr⟩, h⟩
      have := Nat.mul_le_mul_left (step * 2) hr
      omega

/-- The invariant: at the multiples of `step`, the AND over the next `step` negated inputs. -/
def TreeInv (bits : Nat) (x : Nat → Bool) (step : Nat) (v : Nat → Bool) : Prop :=
  ∀ r, step * r < bits → (v (step * r) = true ↔ ∀ j, step * r ≤ j → j < step * r + step → j < bits → x j = false)

open Classical in
theorem andTree_ok {bits : Nat} {x : Nat → Bool} (hb : 0 < bits) : ∀ (fuel step : Nat) (v : Nat → Bool), 0 < step →
    bits ≤ fuel + step → TreeInv bits x step v →
    (evalOps (andTree bits fuel step) v 0 = true ↔ ∀ j < bits, x j = false) := by
  intro fuel
  induction fuel with
  | zero =>
    intro step v hs hf h
    simp only [andTree, evalOps]
    have := h 0 (by omega)
    rw [Nat.mul_zero] at this
    rw [this]
    exact ⟨fun h j hj => h j (by omega) (by omega) hj, fun h j _ _ hj => h j hj⟩
  | succ fuel ih =>
    intro step v hs hf h
    rw [andTree]
    by_cases hc : step < bits
    · rw [if_pos hc, evalOps_append]
      refine ih (step * 2) _ (by omega) (by omega) ?_
      intro r hr
      have e := andPairs_eval (bits := bits) hs bits 0 v (step * 2 * r) (by omega)
      rw [Nat.mul_zero] at e
      rw [e]
      have d1 : step * 2 * r = step * (2 * r) := Nat.mul_assoc _ _ _
      have d2 : step * 2 * r + step = step * (2 * r + 1) := by rw [Nat.mul_add, Nat.mul_one, d1]
      by_cases hr2 : step * 2 * r + step < bits
      · rw [if_pos ⟨⟨r, rfl, Nat.zero_le _⟩, hr2⟩, Bool.and_eq_true]
        have h1 := h (2 * r) (by rw [← d1]; exact hr)
        have h2 := h (2 * r + 1) (by rw [← d2]; exact hr2)
        rw [← d1] at h1
        rw [← d2] at h2
        rw [h1, h2]
        constructor
        · rintro ⟨g1, g2⟩ j j1 j2 j3
          by_cases hj : j < step * 2 * r + step
          · exact g1 j j1 hj j3
          · exact g2 j (by omega) (by omega) j3
        · intro g
          exact ⟨fun j j1 j2 j3 => g j j1 (by omega) j3, fun j j1 j2 j3 => g j (by omega) (by omega) j3⟩
      · rw [if_neg (fun hh => hr2 hh.2)]
        have h1 := h (2 * r) (by rw [← d1]; exact hr)
        rw [← d1] at h1
        rw [h1]
        constructor
        · intro g j j1 j2 j3
          exact g j j1 (by omega) j3
        · intro g j j1 j2 j3
          exact g j j1 (by omega) j3
    · rw [if_neg hc]
      simp only [evalOps]
      have := h 0 (by omega)
      rw [Nat.mul_zero] at this
      rw [this]
      exact ⟨fun h j hj => h j (by omega) (by omega) hj, fun h j _ _ hj => h j hj⟩

end Gmw
end SecJoin
