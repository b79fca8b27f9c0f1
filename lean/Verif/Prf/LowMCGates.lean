import Verif.Prf.LowMCCircuit
import Verif.GMW.ApiProps
/-!
# The gates of the LowMC circuit: supported types, existing wires, nothing is read before it is assigned
-/
namespace SecJoin
namespace LowMC
open Gmw.Wires (DefinedFrom)

theorem defined_append : ∀ (gs : List Gmw.Gate) (D : List Nat) (g : Gmw.Gate), DefinedFrom D gs → (∀ o, Gmw.Reads g o → o ∈ D ∨ o ∈ gs.map Gmw.Gate.out) →
    DefinedFrom D (gs ++ [g])
  | [], D, g, _, h => ⟨fun o ho => by simpa using h o ho, trivial⟩
  | g' :: gs, D, g, hd, h => ⟨hd.1, defined_append gs (g'.out :: D) g hd.2 fun o ho => by
      rcases h o ho with h | h
      · exact .inl (by simp [h])
      · rw [List.map_cons] at h
        rcases List.mem_cons.1 h with h | h
        · exact .inl (by simp [h])
        · exact .inr h⟩

/-- The wire has a value. -/
def Builder.Has (N : Nat) (b : Builder) (x : Nat) : Prop := x < N ∨ x ∈ b.gates.map Gmw.Gate.out

/-- The gates so far are correct, with `N` input wires and `M` wires. -/
structure Builder.Sound (N M : Nat) (b : Builder) : Prop where
  defined : DefinedFrom (List.range N) b.gates
  ok : ∀ g ∈ b.gates, Gmw.GateOk M g

/-- Going from `b` to `b'` keeps what has a value. -/
structure Builder.Step (N M : Nat) (b b' : Builder) : Prop where
  sound : b'.Sound N M
  keep : ∀ x, b.Has N x → b'.Has N x

theorem Builder.Step.trans {N M : Nat} {a b c : Builder} (h1 : a.Step N M b) (h2 : b.Step N M c) : a.Step N M c :=
  ⟨h2.sound, fun x hx => h2.keep x (h1.keep x hx)⟩

theorem Builder.Step.refl {N M : Nat} {a : Builder} (h : a.Sound N M) : a.Step N M a := ⟨h, fun _ h => h⟩

theorem addGate_step {N M : Nat} {b : Builder} (h : b.Sound N M) {x y o : Nat} {t : Gmw.GateType} (ht : t = .xor ∨ t = .and) (hx : b.Has N x)
    (hy : b.Has N y) (hxM : x < M) (hyM : y < M) (hoM : o < M) : b.Step N M (b.addGate x y t o) ∧ (b.addGate x y t o).Has N o := by
  have ho : (b.addGate x y t o).Has N o := .inr (by simp [Builder.addGate])
  refine ⟨⟨⟨?_, fun g hg => ?_⟩, fun z hz => ?_⟩, ho⟩
  · refine defined_append _ _ _ h.defined fun z hz => ?_
    have : z = x ∨ z = y := by
      rcases hz with hz | ⟨-, hz⟩
      · exact .inl hz.symm
      · exact .inr hz.symm
    rcases this with rfl | rfl
    · exact hx.imp (fun h => List.mem_range.2 h) id
    · exact hy.imp (fun h => List.mem_range.2 h) id
  · simp only [Builder.addGate, List.mem_append, List.mem_singleton] at hg
    rcases hg with hg | rfl
    · exact h.ok g hg
    · refine ⟨hxM, hyM, hoM, ?_⟩
      rcases ht with rfl | rfl <;> (simp only; split <;> split <;> decide)
  · refine hz.imp id fun hz => ?_
    simp only [Builder.addGate, List.map_append, List.mem_append]
    exact .inl hz

theorem foldl_step {N M : Nat} {f : Builder → Nat → Builder} (P : Builder → Prop) (out : Nat → Nat)
    (hP : ∀ b b', P b → (∀ x, b.Has N x → b'.Has N x) → P b') :
    ∀ m, (∀ i < m, ∀ b : Builder, b.Sound N M → P b → b.Step N M (f b i) ∧ (f b i).Has N (out i)) → ∀ b : Builder, b.Sound N M → P b →
      b.Step N M ((List.range m).foldl f b) ∧ ∀ i < m, ((List.range m).foldl f b).Has N (out i)
  | 0, _, b, hb, _ => ⟨.refl hb, fun i hi => absurd hi (by omega)⟩
  | m + 1, h, b, hb, hp => by
    obtain ⟨h1, h2⟩ := foldl_step P out hP m (fun i hi => h i (by omega)) b hb hp
    rw [List.range_succ, List.foldl_append, List.foldl_cons, List.foldl_nil]
    obtain ⟨h3, h4⟩ := h m (by omega) _ h1.sound (hP _ _ hp h1.keep)
    refine ⟨h1.trans h3, fun i hi => ?_⟩
    by_cases him : i = m
    · exact him ▸ h4
    · exact h3.keep _ (h2 i (by omega))

/-- The number of input wires and the number of wires. -/
abbrev nIn (n rounds : Nat) : Nat := n * (rounds + 2)
abbrev nAll (n rounds : Nat) : Nat := n * (rounds + 4) + 1

theorem nAll_eq (n rounds : Nat) : nAll n rounds = n * (rounds + 2) + n + n + 1 := by
  unfold nAll
  rw [show rounds + 4 = (rounds + 2) + 2 by omega, Nat.mul_add n (rounds + 2) 2]
  omega

variable {n rounds : Nat}

/-- All wires of the state have a value. -/
def HasState (n rounds : Nat) (b : Builder) : Prop := ∀ i < n, b.Has (nIn n rounds) (wState n rounds i)

theorem hasState_keep {b b' : Builder} (h : HasState n rounds b) (hk : ∀ x, b.Has (nIn n rounds) x → b'.Has (nIn n rounds) x) : HasState n rounds b' :=
  fun i hi => hk _ (h i hi)

theorem box_step {b : Builder} (hb : b.Sound (nIn n rounds) (nAll n rounds)) (hs : HasState n rounds b) {i : Nat} (hi : i * 3 + 2 < n) :
    b.Step (nIn n rounds) (nAll n rounds) (boxGates n rounds b i) := by
  have hM := nAll_eq n rounds
  have l : ∀ q, q < n → wState n rounds q < nAll n rounds := fun q hq => by rw [hM, wState]; omega
  have lt : ∀ q, q < n → wTemp n rounds q < nAll n rounds := fun q hq => by rw [hM, wTemp_eq]; omega
  have l2 : wTemp2 n rounds < nAll n rounds := by rw [hM, wTemp2_eq]; omega
  have s0 := hs (i * 3 + 0) (by omega)
  have s1 := hs (i * 3 + 1) (by omega)
  have s2 := hs (i * 3 + 2) (by omega)
  have m0 := l (i * 3 + 0) (by omega)
  have m1 := l (i * 3 + 1) (by omega)
  have m2 := l (i * 3 + 2) (by omega)
  have t0 := lt (i * 3 + 0) (by omega)
  have t1 := lt (i * 3 + 1) (by omega)
  have t2 := lt (i * 3 + 2) (by omega)
  unfold boxGates
  simp only
  obtain ⟨e1, o1⟩ := addGate_step hb (.inl rfl) s2 s1 m2 m1 l2
  obtain ⟨e2, o2⟩ := addGate_step e1.sound (.inr rfl) (e1.keep _ s1) (e1.keep _ s0) m1 m0 t0
  have k2 := e1.trans e2
  obtain ⟨e3, o3⟩ := addGate_step k2.sound (.inr rfl) (k2.keep _ s2) (k2.keep _ s0) m2 m0 t1
  have k3 := k2.trans e3
  obtain ⟨e4, o4⟩ := addGate_step k3.sound (.inr rfl) (k3.keep _ s2) (k3.keep _ s1) m2 m1 t2
  have k4 := k3.trans e4
  obtain ⟨e5, o5⟩ := addGate_step k4.sound (.inl rfl) o4 (k4.keep _ s0) t2 m0 t2
  have k5 := k4.trans e5
  obtain ⟨e6, o6⟩ := addGate_step k5.sound (.inl rfl) (k5.keep _ s2) (e5.keep _ (e4.keep _ (e3.keep _ o2))) m2 t0 m2
  have k6 := k5.trans e6
  obtain ⟨e7, o7⟩ := addGate_step k6.sound (.inl rfl) (e6.keep _ (e5.keep _ (e4.keep _ (e3.keep _ (e2.keep _ o1))))) (e6.keep _ (e5.keep _ (e4.keep _ o3))) l2 t1 m1
  have k7 := k6.trans e7
  obtain ⟨e8, o8⟩ := addGate_step k7.sound (.inl rfl) (e7.keep _ (e6.keep _ o5)) (e7.keep _ (e6.keep _ (e5.keep _ (e4.keep _ (e3.keep _ (e2.keep _ o1)))))) t2 l2 m0
  exact k7.trans e8

theorem row_step {M : Mtx n} {b b' : Builder} {i : Nat} (hi : i < n) (hb : b.Sound (nIn n rounds) (nAll n rounds)) (hs : HasState n rounds b)
    (h : rowGates rounds M b i = .ok b') : b.Step (nIn n rounds) (nAll n rounds) b' ∧ b'.Has (nIn n rounds) (wTemp n rounds i) := by
  have hM := nAll_eq n rounds
  have l : ∀ q, q < n → wState n rounds q < nAll n rounds := fun q hq => by rw [hM, wState]; omega
  have lt : wTemp n rounds i < nAll n rounds := by rw [hM, wTemp_eq]; omega
  unfold rowGates at h
  simp only at h
  cases h1 : rd M i with
  | error e => rw [h1, err_bind] at h; cases h
  | ok row =>
    rw [h1, ok_bind] at h
    cases h2 : nextOne row 0 with
    | error e => rw [h2, err_bind] at h; cases h
    | ok p =>
      rw [h2, ok_bind] at h
      cases h3 : nextOne row (p + 1) with
      | error e => rw [h3, err_bind] at h; cases h
      | ok q =>
        rw [h3, ok_bind] at h
        cases h
        have hp := (nextOne_ok h2).2.1
        have hq := (nextOne_ok h3).2.1
        obtain ⟨e1, o1⟩ := addGate_step hb (.inl rfl) (hs p hp) (hs q hq) (l p hp) (l q hq) lt
        have key : ∀ (L : List Nat) (c : Builder), (∀ j ∈ L, j < n) → c.Sound (nIn n rounds) (nAll n rounds) → HasState n rounds c →
            c.Has (nIn n rounds) (wTemp n rounds i) → c.Step (nIn n rounds) (nAll n rounds) (L.foldl (fun cir j =>
              if row.getLsbD j then cir.addGate (wTemp n rounds i) (wState n rounds j) .xor (wTemp n rounds i) else cir) c) := by
          intro L
          induction L with
          | nil => exact fun c _ hc _ _ => .refl hc
          | cons j L ih =>
            intro c hL hc hsc ht
            rw [List.foldl_cons]
            have hj := hL j (by simp)
            by_cases hr : row.getLsbD j = true
            · rw [if_pos hr]
              obtain ⟨e2, o2⟩ := addGate_step hc (.inl rfl) ht (hsc j hj) lt (l j hj) lt
              exact e2.trans (ih _ (fun j hj => hL j (by simp [hj])) e2.sound (hasState_keep hsc e2.keep) o2)
            · rw [if_neg hr]
              exact ih _ (fun j hj => hL j (by simp [hj])) hc hsc ht
        have e2 := key (List.range' (q + 1) (n - (q + 1))) _ (fun j hj => by
          have := List.mem_range'_1.1 hj
          omega) e1.sound (hasState_keep hs e1.keep) o1
        exact ⟨e1.trans e2, e2.keep _ o1⟩

theorem rows_step {M : Mtx n} : ∀ m, m ≤ n → ∀ {b b' : Builder}, b.Sound (nIn n rounds) (nAll n rounds) → HasState n rounds b →
    (List.range m).foldlM (rowGates rounds M) b = .ok b' →
    b.Step (nIn n rounds) (nAll n rounds) b' ∧ ∀ i < m, b'.Has (nIn n rounds) (wTemp n rounds i)
  | 0, _, b, b', hb, _, h => by
    cases h
    exact ⟨.refl hb, fun i hi => absurd hi (by omega)⟩
  | m + 1, hm, b, b', hb, hs, h => by
    rw [List.range_succ, List.foldlM_append] at h
    cases h1 : (List.range m).foldlM (rowGates rounds M) b with
    | error e => rw [h1, err_bind] at h; cases h
    | ok c =>
      rw [h1, ok_bind, List.foldlM_cons] at h
      obtain ⟨e1, o1⟩ := rows_step m (by omega) hb hs h1
      cases h2 : rowGates rounds M c m with
      | error e => rw [h2, err_bind] at h; cases h
      | ok d =>
        rw [h2, ok_bind] at h
        cases h
        obtain ⟨e2, o2⟩ := row_step (by omega) e1.sound (hasState_keep hs e1.keep) h2
        refine ⟨e1.trans e2, fun i hi => ?_⟩
        by_cases him : i = m
        · exact him ▸ o2
        · exact e2.keep _ (o1 i (by omega))

theorem inverts_gates (rc : BitVec n) (w : Nat → Nat) : ∀ (L : List Nat) (b : Builder),
    (L.foldl (fun (cir : Builder) i => if rc.getLsbD i then cir.addInvert (w i) else cir) b).gates = b.gates
  | [], _ => rfl
  | i :: L, b => by
    rw [List.foldl_cons, inverts_gates rc w L]
    split <;> rfl

/-- A layer of XORs, with the flags of its outputs. -/
theorem layer_step {A B : Nat → Nat} {b : Builder} (hb : b.Sound (nIn n rounds) (nAll n rounds))
    (hA : ∀ i < n, b.Has (nIn n rounds) (A i) ∧ A i < nAll n rounds) (hB : ∀ i < n, b.Has (nIn n rounds) (B i) ∧ B i < nAll n rounds) :
    let b' := (List.range n).foldl (fun cir i => cir.addGate (A i) (B i) .xor (wState n rounds i)) b
    b.Step (nIn n rounds) (nAll n rounds) b' ∧ HasState n rounds b' ∧ ∀ i < n, b'.inv (wState n rounds i) = false := by
  have hM := nAll_eq n rounds
  obtain ⟨h1, h2⟩ := foldl_step (N := nIn n rounds) (M := nAll n rounds) (f := fun cir i => cir.addGate (A i) (B i) .xor (wState n rounds i))
    (fun b => (∀ i < n, b.Has (nIn n rounds) (A i)) ∧ ∀ i < n, b.Has (nIn n rounds) (B i)) (wState n rounds)
    (fun b b' h hk => ⟨fun i hi => hk _ (h.1 i hi), fun i hi => hk _ (h.2 i hi)⟩) n (fun i hi c hc hP =>
      addGate_step hc (.inl rfl) (hP.1 i hi) (hP.2 i hi) (hA i hi).2 (hB i hi).2 (by rw [hM, wState]; omega)) b hb
    ⟨fun i hi => (hA i hi).1, fun i hi => (hB i hi).1⟩
  refine ⟨h1, h2, ?_⟩
  have key : ∀ m, ∀ i < m, ((List.range m).foldl (fun cir i => cir.addGate (A i) (B i) .xor (wState n rounds i)) b).inv (wState n rounds i) = false := by
    intro m
    induction m with
    | zero => intro i hi; omega
    | succ m ih =>
      intro i hi
      rw [List.range_succ, List.foldl_append, List.foldl_cons, List.foldl_nil]
      simp only [Builder.addGate]
      split
      · rfl
      · rename_i hne
        refine ih i ?_
        by_contra h
        exact hne (by rw [show i = m by omega])
  exact key n

theorem round_step {c : Inst n k} (hbx : 3 * c.boxes ≤ n) {b b' : Builder} {r : Nat} (hr : r < c.rounds) (hb : b.Sound (nIn n c.rounds) (nAll n c.rounds))
    (hs : HasState n c.rounds b) (h : roundGates c b r = .ok b') :
    b.Step (nIn n c.rounds) (nAll n c.rounds) b' ∧ HasState n c.rounds b' ∧ ∀ i < n, b'.inv (wState n c.rounds i) = false := by
  have hM := nAll_eq n c.rounds
  unfold roundGates at h
  simp only at h
  obtain ⟨e1, -⟩ := foldl_step (N := nIn n c.rounds) (M := nAll n c.rounds) (f := boxGates n c.rounds) (HasState n c.rounds) (fun i => wState n c.rounds (i * 3))
    (fun b b' h hk => hasState_keep h hk) c.boxes (fun i hi d hd hP => by
      have := box_step hd hP (i := i) (by omega)
      exact ⟨this, this.keep _ (hP (i * 3) (by omega))⟩) b hb hs
  cases h1 : rd c.lin r with
  | error e => rw [h1, err_bind] at h; cases h
  | ok M =>
    rw [h1, ok_bind] at h
    cases h2 : (List.range n).foldlM (rowGates c.rounds M) ((List.range c.boxes).foldl (boxGates n c.rounds) b) with
    | error e => rw [h2, err_bind] at h; cases h
    | ok d =>
      rw [h2, ok_bind] at h
      obtain ⟨e2, o2⟩ := rows_step n (le_refl _) e1.sound (hasState_keep hs e1.keep) h2
      cases h3 : rd c.consts r with
      | error e => rw [h3, err_bind] at h; cases h
      | ok rc =>
        rw [h3, ok_bind] at h
        cases h
        have hg := inverts_gates rc (wTemp n c.rounds) (List.range n) d
        obtain ⟨f, hf⟩ : ∃ x, x = (List.range n).foldl (fun (cir : Builder) i => if rc.getLsbD i then cir.addInvert (wTemp n c.rounds i) else cir) d := ⟨_, rfl⟩
        rw [← hf] at hg ⊢
        have e3 : d.Step (nIn n c.rounds) (nAll n c.rounds) f := ⟨⟨by rw [hg]; exact e2.sound.defined, by rw [hg]; exact e2.sound.ok⟩, fun x hx => by
          unfold Builder.Has
          rw [hg]
          exact hx⟩
        obtain ⟨e4, o4, o5⟩ := layer_step (A := wTemp n c.rounds) (B := wKey n (r + 1)) e3.sound (fun i hi => ⟨e3.keep _ (o2 i hi), by rw [hM, wTemp_eq]; omega⟩)
          (fun i hi => by
            have := wKey_lt (rounds := c.rounds) (show r + 1 ≤ c.rounds by omega) hi
            exact ⟨.inl this, by omega⟩)
        exact ⟨e1.trans (e2.trans (e3.trans e4)), o4, o5⟩

/-- The circuit: its gates are correct, its outputs are assigned and carry no flag. -/
theorem circuit_sound {c : Inst n k} (hbx : 3 * c.boxes ≤ n) {cir : Gmw.Circuit} (h : toEncCircuit c = .ok cir) :
    (∀ g ∈ cir.gates, Gmw.GateOk cir.wireCount g) ∧ DefinedFrom cir.inputs.flatten cir.gates ∧
      (∀ o ∈ cir.outputs.flatten, o ∈ cir.gates.map Gmw.Gate.out) ∧ ∀ o ∈ cir.outputs.flatten, cir.flag o = .plain := by
  have hM := nAll_eq n c.rounds
  unfold toEncCircuit at h
  cases h1 : addGates c ⟨[], fun _ => false⟩ with
  | error e => rw [h1, err_bind] at h; cases h
  | ok b =>
    rw [h1, ok_bind] at h
    cases h
    have h0 : (⟨[], fun _ => false⟩ : Builder).Sound (nIn n c.rounds) (nAll n c.rounds) := ⟨trivial, by simp⟩
    obtain ⟨e1, o1, o2⟩ := layer_step (A := wMsg n) (B := wKey n 0) h0 (fun i hi => by
      have := wMsg_lt (rounds := c.rounds) hi
      exact ⟨.inl this, by omega⟩) (fun i hi => by
      have := wKey_lt (rounds := c.rounds) (show 0 ≤ c.rounds by omega) hi
      exact ⟨.inl this, by omega⟩)
    have key : ∀ m, m ≤ c.rounds → ∀ b0 b : Builder, b0.Sound (nIn n c.rounds) (nAll n c.rounds) → HasState n c.rounds b0 →
        (∀ i < n, b0.inv (wState n c.rounds i) = false) → (List.range m).foldlM (roundGates c) b0 = .ok b →
        b.Sound (nIn n c.rounds) (nAll n c.rounds) ∧ HasState n c.rounds b ∧ ∀ i < n, b.inv (wState n c.rounds i) = false := by
      intro m
      induction m with
      | zero =>
        intro _ b0 b hb hs hi h
        cases h
        exact ⟨hb, hs, hi⟩
      | succ m ih =>
        intro hm b0 b hb hs hi h
        rw [List.range_succ, List.foldlM_append] at h
        cases h2 : (List.range m).foldlM (roundGates c) b0 with
        | error e => rw [h2, err_bind] at h; cases h
        | ok d =>
          rw [h2, ok_bind, List.foldlM_cons] at h
          obtain ⟨a1, a2, a3⟩ := ih (by omega) b0 d hb hs hi h2
          cases h3 : roundGates c d m with
          | error e => rw [h3, err_bind] at h; cases h
          | ok f =>
            rw [h3, ok_bind] at h
            cases h
            obtain ⟨a4, a5, a6⟩ := round_step hbx (by omega) a1 a2 h3
            exact ⟨a4.sound, a5, a6⟩
    obtain ⟨k1, k2, k3⟩ := key c.rounds (le_refl _) _ b e1.sound o1 o2 h1
    have hout : ∀ o ∈ ([(List.range n).map (wState n c.rounds)] : List (List Nat)).flatten, ∃ i < n, o = wState n c.rounds i := fun o ho => by
      simp only [List.flatten_cons, List.flatten_nil, List.append_nil, List.mem_map, List.mem_range] at ho
      obtain ⟨i, hi, e⟩ := ho
      exact ⟨i, hi, e.symm⟩
    refine ⟨k1.ok, ?_, fun o ho => ?_, fun o ho => ?_⟩
    · rw [wires_flatten n (c.rounds + 1)]
      exact k1.defined
    · obtain ⟨i, hi, rfl⟩ := hout o ho
      refine (k2 i hi).resolve_left ?_
      unfold wState nIn
      omega
    · obtain ⟨i, hi, rfl⟩ := hout o ho
      simp only [k3 i hi]
      rfl

end LowMC
end SecJoin
