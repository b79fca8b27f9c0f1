import Verif.GMW.CallProps
import Verif.Sort.RadixCir
/-!
# Every Boolean function has a circuit

The circuits of the code come from a library that is not part of it. Theorems on the code suppose circuits that compute a given function; here it
is shown that for every function there is one, so that these hypotheses can be met.
-/
namespace SecJoin
namespace Gmw
namespace Wires

theorem evalGates_other : ∀ (gs : List Gate) (v : Nat → Bool) (i : Nat), (∀ g ∈ gs, g.out ≠ i) → evalGates gs v i = v i
  | [], _, _, _ => rfl
  | g :: gs, v, i, h => by
    rw [evalGates, evalGates_other gs _ i fun g' hg => h g' (List.mem_cons_of_mem _ hg), evalGate, if_neg fun e => h g List.mem_cons_self e.symm]

theorem gateOk_mono {m m' : Nat} {g : Gate} (h : GateOk m g) (hm : m ≤ m') : GateOk m' g :=
  ⟨Nat.lt_of_lt_of_le h.in0 hm, Nat.lt_of_lt_of_le h.in1 hm, Nat.lt_of_lt_of_le h.out hm, h.type⟩

/-- Gates for a function of the first `k` of `N` wires that write wires from `base` on. -/
theorem bool_gates {N : Nat} (hN : 0 < N) : ∀ (k : Nat), k ≤ N → ∀ F : (Nat → Bool) → Bool, (∀ u v, (∀ i < k, u i = v i) → F u = F v) →
    ∀ base, N ≤ base → ∃ gs m, base < m ∧ (∀ g ∈ gs, GateOk m g ∧ base ≤ g.out) ∧ DefinedFrom (List.range' 0 N) gs ∧ m - 1 ∈ gs.map Gate.out ∧
      ∀ v, evalGates gs v (m - 1) = F v
  | 0, _, F, hF, base, hb => by
    refine ⟨[⟨0, 0, base, if F fun _ => false then .nxor else .xor⟩], base + 1, by omega, ?_, ⟨?_, trivial⟩, by simp, fun v => ?_⟩
    · intro g hg
      rw [List.mem_singleton] at hg
      subst hg
      refine ⟨⟨Nat.succ_pos _, Nat.succ_pos _, Nat.lt_succ_self _, ?_⟩, Nat.le_refl _⟩
      dsimp only
      split <;> simp [kind]
    · intro o ho
      have : o = 0 := by rcases ho with h | ⟨-, h⟩ <;> exact h.symm
      rw [this, List.mem_range'_1]
      omega
    · rw [evalGates, evalGates, evalGate, if_pos (by simp), hF v (fun _ => false) (fun i hi => by omega)]
      dsimp only
      cases F fun _ => false <;> simp [table]
  | k + 1, hk, F, hF, base, hb => by
    let F0 : (Nat → Bool) → Bool := fun v => F fun i => if i = k then false else v i
    let F1 : (Nat → Bool) → Bool := fun v => F fun i => if i = k then true else v i
    have d0 : ∀ u v : Nat → Bool, (∀ i < k, u i = v i) → F0 u = F0 v := fun u v h => hF _ _ fun i hi => by
      by_cases e : i = k
      · simp [e]
      · simp only [e, if_false]; exact h i (by omega)
    have d1 : ∀ u v : Nat → Bool, (∀ i < k, u i = v i) → F1 u = F1 v := fun u v h => hF _ _ fun i hi => by
      by_cases e : i = k
      · simp [e]
      · simp only [e, if_false]; exact h i (by omega)
    obtain ⟨g0, m0, a1, a2, a3, a4, a5⟩ := bool_gates hN k (by omega) F0 d0 base hb
    obtain ⟨g1, m1, b1, b2, b3, b4, b5⟩ := bool_gates hN k (by omega) F1 d1 m0 (by omega)
    refine ⟨g0 ++ (g1 ++ [⟨m0 - 1, m1 - 1, m1, .xor⟩, ⟨k, m1, m1 + 1, .and⟩, ⟨m0 - 1, m1 + 1, m1 + 2, .xor⟩]), m1 + 3, by omega, fun g hg => ?_, ?_, by simp,
      fun v => ?_⟩
    · rcases List.mem_append.1 hg with h | h
      · exact ⟨gateOk_mono (a2 g h).1 (by omega), (a2 g h).2⟩
      · rcases List.mem_append.1 h with h | h
        · exact ⟨gateOk_mono (b2 g h).1 (by omega), by have := (b2 g h).2; omega⟩
        · simp only [List.mem_cons, List.not_mem_nil, or_false] at h
          rcases h with rfl | rfl | rfl
          · exact ⟨⟨by dsimp only; omega, by dsimp only; omega, by dsimp only; omega, by simp [kind]⟩, by dsimp only; omega⟩
          · exact ⟨⟨by dsimp only; omega, by dsimp only; omega, by dsimp only; omega, by simp [kind]⟩, by dsimp only; omega⟩
          · exact ⟨⟨by dsimp only; omega, by dsimp only; omega, by dsimp only; omega, by simp [kind]⟩, by dsimp only; omega⟩
    · have mk : k ∈ List.range' 0 N := by rw [List.mem_range'_1]; omega
      refine a3.append ((b3.mono fun x hx => List.mem_append_right _ hx).append ⟨fun o ho => ?_, fun o ho => ?_, fun o ho => ?_, trivial⟩)
      · rcases ho with rfl | ⟨-, rfl⟩
        · exact List.mem_append_right _ (List.mem_append_left _ a4)
        · exact List.mem_append_left _ b4
      · rcases ho with rfl | ⟨-, rfl⟩
        · exact List.mem_cons_of_mem _ (List.mem_append_right _ (List.mem_append_right _ mk))
        · exact List.mem_cons_self
      · rcases ho with rfl | ⟨-, rfl⟩
        · exact List.mem_cons_of_mem _ (List.mem_cons_of_mem _ (List.mem_append_right _ (List.mem_append_left _ a4)))
        · exact List.mem_cons_self
    · rw [evalGates_append, evalGates_append]
      have e1 : ∀ i < base, evalGates g0 v i = v i := fun i hi => evalGates_other _ _ _ fun g hg => by have := (a2 g hg).2; omega
      have e2 : ∀ i < m0, evalGates g1 (evalGates g0 v) i = evalGates g0 v i := fun i hi => evalGates_other _ _ _ fun g hg => by have := (b2 g hg).2; omega
      have v0 : evalGates g1 (evalGates g0 v) (m0 - 1) = F0 v := by rw [e2 _ (by omega), a5]
      have v1 : evalGates g1 (evalGates g0 v) (m1 - 1) = F1 v := by rw [b5, d1 _ v fun i hi => e1 i (by omega)]
      have vk : evalGates g1 (evalGates g0 v) k = v k := by rw [e2 _ (by omega), e1 _ (by omega)]
      generalize evalGates g1 (evalGates g0 v) = u at v0 v1 vk
      have f0 : F v = if v k then F1 v else F0 v := by
        cases hv : v k
        · exact hF _ _ fun i _ => by by_cases e : i = k <;> simp [e, hv]
        · exact hF _ _ fun i _ => by by_cases e : i = k <;> simp [e, hv]
      simp only [evalGates, evalGate, table, Nat.add_sub_cancel_left]
      have n1 : m0 - 1 ≠ m1 := by omega
      have n2 : m0 - 1 ≠ m1 + 1 := by omega
      have n3 : k ≠ m1 := by omega
      have n4 : m1 + 3 - 1 = m1 + 2 := rfl
      simp only [n4, if_true, n1, n2, n3, if_false, v0, v1, vk, f0]
      cases v k <;> cases F0 v <;> cases F1 v <;> rfl

/-- Gates for several functions of `N` wires, with the results in the wires from `o` on. -/
theorem outs_gates {N : Nat} (hN : 0 < N) : ∀ (fs : List ((Nat → Bool) → Bool)), (∀ f ∈ fs, ∀ u v : Nat → Bool, (∀ i < N, u i = v i) → f u = f v) →
    ∀ o base, N ≤ o → o + fs.length ≤ base → ∃ gs m, base ≤ m ∧ (∀ g ∈ gs, GateOk m g ∧ (o ≤ g.out ∧ g.out < o + fs.length ∨ base ≤ g.out)) ∧
      DefinedFrom (List.range' 0 N) gs ∧ (∀ i < fs.length, o + i ∈ gs.map Gate.out) ∧
      ∀ i f, fs[i]? = some f → ∀ v, evalGates gs v (o + i) = f v
  | [], _, o, base, _, _ => ⟨[], base, Nat.le_refl _, by simp, trivial, by simp, by simp⟩
  | f :: fs, hf, o, base, ho, hb => by
    rw [List.length_cons] at hb
    obtain ⟨g0, m0, a1, a2, a3, a4, a5⟩ := bool_gates hN N (Nat.le_refl _) f (hf f List.mem_cons_self) base (by omega)
    obtain ⟨g1, m, b1, b2, b3, b4, b5⟩ := outs_gates hN fs (fun f' h => hf f' (List.mem_cons_of_mem _ h)) (o + 1) m0 (by omega) (by omega)
    refine ⟨g0 ++ (⟨m0 - 1, m0 - 1, o, .a⟩ :: g1), m, by omega, fun g hg => ?_, ?_, fun i hi => ?_, fun i f' hi v => ?_⟩
    · rw [List.length_cons]
      rcases List.mem_append.1 hg with h | h
      · exact ⟨gateOk_mono (a2 g h).1 (by omega), Or.inr (a2 g h).2⟩
      · rcases List.mem_cons.1 h with rfl | h
        · exact ⟨⟨by dsimp only; omega, by dsimp only; omega, by dsimp only; omega, by simp [kind]⟩, Or.inl ⟨Nat.le_refl _, by dsimp only; omega⟩⟩
        · have := (b2 g h).2
          exact ⟨(b2 g h).1, by omega⟩
    · refine a3.append ⟨fun x hx => ?_, b3.mono fun x hx => List.mem_cons_of_mem _ (List.mem_append_right _ hx)⟩
      rcases hx with rfl | ⟨h, -⟩
      · exact List.mem_append_left _ a4
      · simp [kind] at h
    · rw [List.length_cons] at hi
      rw [List.map_append, List.map_cons]
      cases i with
      | zero => simp
      | succ i =>
        have := b4 i (by omega)
        rw [show o + 1 + i = o + (i + 1) by omega] at this
        exact List.mem_append_right _ (List.mem_cons_of_mem _ this)
    · rw [evalGates_append, evalGates]
      cases i with
      | zero =>
        simp only [List.getElem?_cons_zero, Option.some.injEq] at hi
        subst hi
        rw [Nat.add_zero, evalGates_other _ _ _ fun g hg => by have := (b2 g hg).2; omega, evalGate, if_pos rfl]
        simp only [table, a5]
      | succ i =>
        rw [List.getElem?_cons_succ] at hi
        rw [show o + (i + 1) = o + 1 + i by omega, b5 i f' hi]
        refine hf f' (List.mem_cons_of_mem _ (List.mem_of_getElem? hi)) _ _ fun j hj => ?_
        rw [evalGate, if_neg (by dsimp only; omega)]
        exact evalGates_other _ _ _ fun g hg => by have := (a2 g hg).2; omega

/-! ## Bundles of consecutive wires -/

/-- Bundles of the given numbers of wires, from wire `s` on. -/
def runs : Nat → List Nat → List (List Nat)
  | _, [] => []
  | s, b :: bs => List.range' s b :: runs (s + b) bs

theorem runs_length (s : Nat) (bs : List Nat) : (runs s bs).map List.length = bs := by
  induction bs generalizing s with
  | nil => rfl
  | cons b bs ih => simp [runs, ih]

theorem runs_flatten (s : Nat) (bs : List Nat) : (runs s bs).flatten = List.range' s bs.sum := by
  induction bs generalizing s with
  | nil => rfl
  | cons b bs ih => rw [runs, List.flatten_cons, ih, List.sum_cons, List.range'_append_1]

theorem flat_get {A : List (List α)} {i j : Nat} {b : List α} {y : α} (hi : A[i]? = some b) (hj : b[j]? = some y) :
    A.flatten[((A.map List.length).take i).sum + j]? = some y := by
  induction A generalizing i with
  | nil => simp at hi
  | cons a A ih =>
    cases i with
    | zero =>
      simp only [List.getElem?_cons_zero, Option.some.injEq] at hi
      subst hi
      obtain ⟨h, -⟩ := List.getElem?_eq_some_iff.1 hj
      simp only [List.take_zero, List.sum_nil, Nat.zero_add, List.flatten_cons]
      rw [List.getElem?_append_left h, hj]
    | succ i =>
      rw [List.getElem?_cons_succ] at hi
      rw [List.map_cons, List.take_succ_cons, List.sum_cons, List.flatten_cons, List.getElem?_append_right (by omega), ← ih hi]
      congr 1
      omega

theorem runs_get {s i j o : Nat} {bs b : List Nat} (hi : (runs s bs)[i]? = some b) (hj : b[j]? = some o) : o = s + (bs.take i).sum + j ∧ j < bs.getD i 0 := by
  have h := flat_get hi hj
  rw [runs_flatten, runs_length] at h
  obtain ⟨h1, h2⟩ := List.getElem?_eq_some_iff.1 h
  rw [List.getElem_range'] at h2
  refine ⟨by omega, ?_⟩
  have hl := congrArg (fun l : List Nat => l[i]?) (runs_length s bs)
  simp only [List.getElem?_map, hi, Option.map_some] at hl
  rw [List.getD_eq_getElem?_getD, ← hl]
  obtain ⟨h, -⟩ := List.getElem?_eq_some_iff.1 hj
  simpa using h

/-- Bundles of a run are consecutive. -/
theorem runs_consec {s : Nat} {bs : List Nat} (hb : ∀ b ∈ bs, 0 < b) : ∀ l ∈ runs s bs, l ≠ [] ∧ ∀ j, (h : j + 1 < l.length) → l[j + 1] = l[j] + 1 := by
  induction bs generalizing s with
  | nil => simp [runs]
  | cons b bs ih =>
    intro l hl
    rcases List.mem_cons.1 hl with rfl | hl
    · refine ⟨fun h => ?_, fun j h => by simp; omega⟩
      have := congrArg List.length h
      have := hb b List.mem_cons_self
      simp at *
      omega
    · exact ih (fun b' h => hb b' (List.mem_cons_of_mem _ h)) l hl

/-- The inputs, with zeros outside of the bundles. -/
def cutIns (ib : List Nat) (x : Nat → Nat → Bool) : Nat → Nat → Bool := fun i j => if j < ib.getD i 0 then x i j else false

theorem getD_take_sum {ib : List Nat} {i j : Nat} (h : j < ib.getD i 0) : (ib.take i).sum + j < ib.sum := by
  induction ib generalizing i with
  | nil => simp at h
  | cons b bs ih =>
    cases i with
    | zero => simp only [List.getD_cons_zero] at h; simp; omega
    | succ i =>
      rw [List.getD_cons_succ] at h
      have := ih h
      simp only [List.take_succ_cons, List.sum_cons]
      omega

/-- Every function of at least one bit to at least one bit has a circuit. -/
theorem any_cir (ib ob : List Nat) (hi : 0 < ib.sum) (ho : 0 < ob.sum) (G : (Nat → Nat → Bool) → Nat → Nat → Bool) :
    ∃ c : Cir, c.ins = runs 0 ib ∧ c.outs = runs ib.sum ob ∧ Computes c fun x => G (cutIns ib x) := by
  let un : (Nat → Bool) → Nat → Nat → Bool := fun v => cutIns ib fun i j => v ((ib.take i).sum + j)
  let fss : List (List ((Nat → Bool) → Bool)) := (List.range ob.length).map fun i => (List.range (ob.getD i 0)).map fun j v => G (un v) i j
  have fl : fss.map List.length = ob := by
    simp only [fss, List.map_map]
    apply List.ext_getElem
    · simp
    · intro i h1 h2
      simp [h2]
  have fd : ∀ f ∈ fss.flatten, ∀ u v : Nat → Bool, (∀ i < ib.sum, u i = v i) → f u = f v := by
    intro f hf u v huv
    obtain ⟨l, hl, hfl⟩ := List.mem_flatten.1 hf
    obtain ⟨i, -, rfl⟩ := List.mem_map.1 hl
    obtain ⟨j, -, rfl⟩ := List.mem_map.1 hfl
    have : un u = un v := by
      funext a b
      simp only [un, cutIns]
      split
      · rename_i h
        exact huv _ (getD_take_sum h)
      · rfl
    simp only [this]
  have fn : fss.flatten.length = ob.sum := by rw [List.length_flatten, fl]
  obtain ⟨gs, m, h1, h2, h3, h4, h5⟩ := outs_gates hi fss.flatten fd ib.sum (ib.sum + ob.sum) (Nat.le_refl _) (by omega)
  have hne : gs ≠ [] := by
    rintro rfl
    have := h4 0 (by omega)
    simp at this
  refine ⟨⟨m, runs 0 ib, runs ib.sum ob, gs.map fun g => [g]⟩, rfl, rfl, ?_⟩
  refine Levelled.computes (c := ⟨runs 0 ib, runs ib.sum ob, m, gs, fun _ => .plain⟩) (levelled_single hne (fun g hg => (h2 g hg).1) ?_ ?_) ?_ _ ?_
  · rw [runs_flatten]; exact h3
  · intro o h
    rw [runs_flatten, List.mem_range'_1] at h
    right
    have := h4 (o - ib.sum) (by omega)
    rwa [show ib.sum + (o - ib.sum) = o by omega] at this
  · have e : (runs 0 ib ++ runs ib.sum ob).flatten = List.range' 0 (ib.sum + ob.sum) := by
      rw [List.flatten_append, runs_flatten, runs_flatten, ← List.range'_append_1, Nat.zero_add]
    refine ⟨fun x hx => ?_, ?_⟩
    · rw [e, List.mem_range'_1] at hx
      dsimp only
      omega
    · rw [e]; exact List.nodup_range'
  · intro x v hv i b hb j o hjo
    obtain ⟨e1, e2⟩ := runs_get hb hjo
    have hil : i < ob.length := by
      by_contra hcon
      rw [List.getD_eq_getElem?_getD, List.getElem?_eq_none (by omega)] at e2
      simp at e2
    have hf : fss[i]? = some ((List.range (ob.getD i 0)).map fun j v => G (un v) i j) := by
      simp only [fss]
      rw [List.getElem?_map, List.getElem?_range hil]
      rfl
    have hff := flat_get hf (j := j) (y := fun v => G (un v) i j) (by rw [List.getElem?_map, List.getElem?_range e2]; rfl)
    rw [fl] at hff
    have := h5 _ _ hff v
    rw [e1, Nat.add_assoc]
    refine this.trans ?_
    have : un v = cutIns ib x := by
      funext a b
      simp only [un, cutIns]
      split
      · rename_i h
        have ha : a < ib.length := by
          by_contra hcon
          rw [List.getD_eq_getElem?_getD, List.getElem?_eq_none (by omega)] at h
          simp at h
        have hra : a < (runs 0 ib).length := by rw [← List.length_map (f := List.length), runs_length]; exact ha
        have hl := congrArg (fun l : List Nat => l[a]?) (runs_length 0 ib)
        simp only [List.getElem?_map, List.getElem?_eq_getElem hra, Option.map_some] at hl
        have hbl : b < ((runs 0 ib)[a]).length := by
          rw [List.getD_eq_getElem?_getD, ← hl] at h
          simpa using h
        have hr := runs_get (List.getElem?_eq_getElem hra) (List.getElem?_eq_getElem hbl)
        rw [← hv a _ (List.getElem?_eq_getElem hra) b _ (List.getElem?_eq_getElem hbl), hr.1, Nat.zero_add]
      · rfl
    simp only [this]

end Wires
end Gmw
end SecJoin
