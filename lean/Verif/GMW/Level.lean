import Verif.GMW.Lemmas
/-!
# One level of a GMW run
-/
namespace SecJoin
namespace Gmw

/-- All wires are present and have `W` blocks. -/
def WordsOk (W m : Nat) (w : List Word) : Prop := w.length = m ∧ ∀ x ∈ w, x.length = W

theorem WordsOk.get {W m : Nat} {w : List Word} (h : WordsOk W m w) {i : Nat} (hi : i < m) :
    rd w i = .ok (w.getD i []) ∧ (w.getD i []).length = W := by
  have : i < w.length := by rw [h.1]; exact hi
  rw [rd_ok this, List.getD_eq_getElem?_getD, List.getElem?_eq_getElem this]
  exact ⟨rfl, h.2 _ (List.getElem_mem this)⟩

theorem WordsOk.set {W m : Nat} {w : List Word} (h : WordsOk W m w) (i : Nat) {z : Word} (hz : z.length = W) :
    WordsOk W m (w.set i z) := by
  refine ⟨by rw [List.length_set, h.1], fun x hx => ?_⟩
  rcases List.mem_or_eq_of_mem_set hx with hx | rfl
  · exact h.2 x hx
  · exact hz

/-- The wires of a gate exist and its type is supported. -/
structure GateOk (m : Nat) (g : Gate) : Prop where
  in0 : g.in0 < m
  in1 : g.in1 < m
  out : g.out < m
  type : kind g.type ≠ .bad

/-- The gate reads wire `o`; a copy gate does not read its second input. -/
def Reads (g : Gate) (o : Nat) : Prop := g.in0 = o ∨ (kind g.type ≠ .copy ∧ g.in1 = o)

/-- The gate `h` may follow the nonlinear gate `g` in one level. -/
def MayFollow (g h : Gate) : Prop :=
  ¬ Reads h g.out ∧ h.out ≠ g.in0 ∧ h.out ≠ g.in1 ∧ (kind h.type ≠ .mult → h.out ≠ g.out)

/-- A correct level: no gate depends on the result of a nonlinear gate of the same level, and no gate
overwrites an input of an earlier nonlinear gate of the level. -/
def LevelOk : List Gate → Prop
  | [] => True
  | g :: gs => (kind g.type = .mult → ∀ h ∈ gs, MayFollow g h) ∧ LevelOk gs

instance (g : Gate) (o : Nat) : Decidable (Reads g o) := by unfold Reads; infer_instance
instance (g h : Gate) : Decidable (MayFollow g h) := by unfold MayFollow; infer_instance
instance decLevelOk : (gs : List Gate) → Decidable (LevelOk gs)
  | [] => .isTrue trivial
  | g :: gs => @instDecidableAnd _ _ inferInstance (decLevelOk gs)

theorem rd_set_ne {w : List Word} {i o : Nat} {z : Word} (h : i ≠ o) : rd (w.set o z) i = rd w i := by
  unfold rd
  rw [List.getElem?_set_ne (by omega)]

theorem rd_ok_iff {w : List α} {i : Nat} {x : α} : rd w i = .ok x ↔ w[i]? = some x := by
  unfold rd
  cases w[i]? <;> simp

theorem rd_set_exists {w : List Word} {i o : Nat} {z x : Word} (h : rd w i = .ok x) :
    ∃ x', rd (w.set o z) i = .ok x' := by
  rw [rd_ok_iff] at h
  have hi : i < w.length := (List.getElem?_eq_some_iff.1 h).1
  exact ⟨_, rd_ok (by rw [List.length_set]; exact hi)⟩

theorem bind_ok_iff {x : Res α} {f : α → Res β} {b : β} :
    (x >>= f) = .ok b ↔ ∃ a, x = .ok a ∧ f a = .ok b := by
  cases x with
  | ok a => simp
  | error e => simp

theorem wr_ok_iff {w : List α} {i : Nat} {x : α} {w' : List α} :
    wr w i x = .ok w' ↔ i < w.length ∧ w.set i x = w' := by
  unfold wr
  by_cases h : i < w.length <;> simp [h]

/-- Changing a wire that no gate reads and no linear gate writes does not matter for the first loop. -/
theorem phase1_set {role W o : Nat} {z : Word} : ∀ (gs : List Gate) (a c : List Block) (w w' : List Word)
    (ms : List Block), (∀ h ∈ gs, ¬ Reads h o ∧ (kind h.type ≠ .mult → h.out ≠ o)) →
    phase1 role W gs a c w = .ok (w', ms) → phase1 role W gs a c (w.set o z) = .ok (w'.set o z, ms) := by
  intro gs
  induction gs with
  | nil =>
    intro a c w w' ms _ h
    simp only [phase1, Except.ok.injEq, Prod.mk.injEq] at h ⊢
    obtain ⟨rfl, rfl⟩ := h
    exact ⟨rfl, rfl⟩
  | cons g gs ih =>
    intro a c w w' ms hg h
    have hgs : ∀ h ∈ gs, ¬ Reads h o ∧ (kind h.type ≠ .mult → h.out ≠ o) := fun h hh => hg h (by simp [hh])
    obtain ⟨hr, hw⟩ := hg g (by simp)
    unfold Reads at hr
    have h0 : g.in0 ≠ o := fun e => hr (Or.inl e)
    simp only [phase1] at h ⊢
    obtain ⟨x, hx, h⟩ := bind_ok_iff.1 h
    obtain ⟨y, hy, h⟩ := bind_ok_iff.1 h
    rw [rd_set_ne h0, hx, ok_bind]
    cases hk : kind g.type with
    | copy =>
      obtain ⟨y', hy'⟩ := rd_set_exists (o := o) (z := z) hy
      rw [hy', ok_bind]
      rw [hk] at h
      simp only at h ⊢
      obtain ⟨w1, h1, h⟩ := bind_ok_iff.1 h
      rw [wr_ok_iff] at h1
      rw [wr_ok (by rw [List.length_set]; exact h1.1), ok_bind, List.set_comm _ _ (by
        have := hw (by rw [hk]; simp); omega), h1.2]
      exact ih _ _ _ _ _ hgs h
    | mult =>
      have h1 : g.in1 ≠ o := fun e => hr (Or.inr ⟨by rw [hk]; simp, e⟩)
      rw [rd_set_ne h1, hy, ok_bind]
      rw [hk] at h
      simp only at h ⊢
      obtain ⟨v, hv, h⟩ := bind_ok_iff.1 h
      obtain ⟨v', hv'⟩ := rd_set_exists (o := o) (z := z) hv
      obtain ⟨ca, hca, h⟩ := bind_ok_iff.1 h
      obtain ⟨cc, hcc, h⟩ := bind_ok_iff.1 h
      obtain ⟨m, hm, h⟩ := bind_ok_iff.1 h
      obtain ⟨p, hp, h⟩ := bind_ok_iff.1 h
      rw [hv', ok_bind, hca, ok_bind]
      rw [hcc, ok_bind]
      rw [hm, ok_bind, ih _ _ _ _ _ hgs hp, ok_bind]
      simp only [Except.ok.injEq, Prod.mk.injEq] at h ⊢
      exact ⟨by rw [h.1], h.2⟩
    | xor =>
      have h1 : g.in1 ≠ o := fun e => hr (Or.inr ⟨by rw [hk]; simp, e⟩)
      rw [rd_set_ne h1, hy, ok_bind]
      rw [hk] at h
      simp only at h ⊢
      obtain ⟨w1, h1, h⟩ := bind_ok_iff.1 h
      rw [wr_ok_iff] at h1
      rw [wr_ok (by rw [List.length_set]; exact h1.1), ok_bind, List.set_comm _ _ (by
        have := hw (by rw [hk]; simp); omega), h1.2]
      exact ih _ _ _ _ _ hgs h
    | nxor =>
      have h1 : g.in1 ≠ o := fun e => hr (Or.inr ⟨by rw [hk]; simp, e⟩)
      rw [rd_set_ne h1, hy, ok_bind]
      rw [hk] at h
      simp only at h ⊢
      obtain ⟨w1, h1, h⟩ := bind_ok_iff.1 h
      rw [wr_ok_iff] at h1
      rw [wr_ok (by rw [List.length_set]; exact h1.1), ok_bind, List.set_comm _ _ (by
        have := hw (by rw [hk]; simp); omega), h1.2]
      exact ih _ _ _ _ _ hgs h
    | bad =>
      rw [hk] at h
      simp at h

/-- The first loop changes only the outputs of linear gates. -/
theorem phase1_get {role W i : Nat} : ∀ (gs : List Gate) (a c : List Block) (w w' : List Word)
    (ms : List Block), (∀ h ∈ gs, kind h.type ≠ .mult → h.out ≠ i) →
    phase1 role W gs a c w = .ok (w', ms) → w'[i]? = w[i]? := by
  intro gs
  induction gs with
  | nil =>
    intro a c w w' ms _ h
    simp only [phase1, Except.ok.injEq, Prod.mk.injEq] at h
    rw [h.1]
  | cons g gs ih =>
    intro a c w w' ms hg h
    have hgs : ∀ h ∈ gs, kind h.type ≠ .mult → h.out ≠ i := fun h hh => hg h (by simp [hh])
    have hw := hg g (by simp)
    simp only [phase1] at h
    obtain ⟨x, hx, h⟩ := bind_ok_iff.1 h
    obtain ⟨y, hy, h⟩ := bind_ok_iff.1 h
    cases hk : kind g.type with
    | mult =>
      rw [hk] at h
      simp only at h
      obtain ⟨v, hv, h⟩ := bind_ok_iff.1 h
      obtain ⟨ca, hca, h⟩ := bind_ok_iff.1 h
      obtain ⟨cc, hcc, h⟩ := bind_ok_iff.1 h
      obtain ⟨m, hm, h⟩ := bind_ok_iff.1 h
      obtain ⟨p, hp, h⟩ := bind_ok_iff.1 h
      simp only [Except.ok.injEq, Prod.mk.injEq] at h
      rw [← h.1]
      exact ih _ _ _ _ _ hgs hp
    | bad =>
      rw [hk] at h
      simp at h
    | copy | xor | nxor =>
      rw [hk] at h
      simp only at h
      obtain ⟨w1, h1, h⟩ := bind_ok_iff.1 h
      rw [wr_ok_iff] at h1
      rw [ih _ _ _ _ _ hgs h, ← h1.2, List.getElem?_set_ne (hw (by rw [hk]; simp))]

/-! ## Evaluation -/

/-- The value of wire `i` in instance `k` that the two parties share. -/
def recon (w0 w1 : List Word) (k i : Nat) : Bool := wbit (w0.getD i []) k ^^ wbit (w1.getD i []) k

theorem recon_set {w0 w1 : List Word} {m o k : Nat} {z0 z1 : Word} (h0 : w0.length = m) (h1 : w1.length = m)
    (ho : o < m) (i : Nat) :
    recon (w0.set o z0) (w1.set o z1) k i = if i = o then (wbit z0 k ^^ wbit z1 k) else recon w0 w1 k i := by
  unfold recon
  by_cases hi : i = o
  · subst hi
    rw [if_pos rfl]
    simp [List.getD_eq_getElem?_getD, h0, h1, ho]
  · rw [if_neg hi]
    simp only [List.getD_eq_getElem?_getD]
    rw [List.getElem?_set_ne (by omega), List.getElem?_set_ne (by omega)]

theorem evalGates_congr {m : Nat} : ∀ (gs : List Gate) (u v : Nat → Bool), (∀ g ∈ gs, GateOk m g) →
    (∀ i < m, u i = v i) → ∀ i < m, evalGates gs u i = evalGates gs v i := by
  intro gs
  induction gs with
  | nil => intro u v _ h i hi; exact h i hi
  | cons g gs ih =>
    intro u v hg h i hi
    apply ih _ _ (fun g hg' => hg g (by simp [hg'])) _ i hi
    intro j hj
    have := hg g (by simp)
    unfold evalGate
    rw [h _ this.in0, h _ this.in1, h _ hj]

theorem ands_cons (g : Gate) (gs : List Gate) : ands (g :: gs) = ands gs + if kind g.type = .mult then 1 else 0 := by
  unfold ands
  rw [List.filter_cons]
  by_cases h : kind g.type = .mult
  · simp [h]
  · rw [if_neg (by simpa using h), if_neg h]; rfl

theorem phase1_mult {role W : Nat} {g : Gate} {gs : List Gate} {a c : List Block} {w w' : List Word}
    {x y : Word} {m ms : List Block} (hk : kind g.type = .mult) (hx : rd w g.in0 = .ok x) (hy : rd w g.in1 = .ok y)
    (ho : g.out < w.length) (ha : W ≤ a.length) (hc : W ≤ c.length)
    (hs : multSend role g.type x y (a.take W) (c.take W) = .ok m)
    (hp : phase1 role W gs (a.drop W) (c.drop W) w = .ok (w', ms)) :
    phase1 role W (g :: gs) a c w = .ok (w', m ++ ms) := by
  rw [phase1, hx, ok_bind, hy, ok_bind, hk]
  show (do let _ ← rd w g.out; _) = _
  rw [rd_ok ho, ok_bind, cut_ok ha, ok_bind, cut_ok hc]
  simp only [ok_bind, hs, hp]

theorem phase2_mult {role W : Nat} {g : Gate} {gs : List Gate} {b c d m0 m1 m : List Block} {w : List Word}
    {x y z : Word} {r : Res (List Word)} (hk : kind g.type = .mult) (h0 : m0.length = W) (h1 : m1.length = W)
    (hx : rd w g.in0 = .ok x) (hy : rd w g.in1 = .ok y) (ho : g.out < w.length)
    (hb : W ≤ b.length) (hc : W ≤ c.length) (hd : W ≤ d.length)
    (hs : multRecv role g.type x y (b.take W) (c.take W) (d.take W) m0 m1 = .ok z)
    (hp : phase2 role W gs (b.drop W) (c.drop W) (d.drop W) m (w.set g.out z) = r) :
    phase2 role W (g :: gs) b c d ((m0 ++ m1) ++ m) w = r := by
  have e0 : W ≤ ((m0 ++ m1) ++ m).length := by simp [h0]
  have e1 : W ≤ (m1 ++ m).length := by simp [h1]
  rw [phase2, hk]
  simp only
  rw [cut_ok e0, ok_bind, List.append_assoc, List.take_left' h0, List.drop_left' h0]
  simp only [cut_ok e1, ok_bind, List.take_left' h1, List.drop_left' h1, hx, hy, cut_ok hb, cut_ok hc, cut_ok hd, hs,
    wr_ok ho, hp]

/-- One level: the shares after the level are shares of the plaintext evaluation of its gates. -/
theorem level_ok {W m : Nat} : ∀ (gs : List Gate) (t0 t1 : Triples) (w0 w1 : List Word),
    WordsOk W m w0 → WordsOk W m w1 → (∀ g ∈ gs, GateOk m g) → LevelOk gs → TriplesOk (W * ands gs) t0 t1 →
    ∃ u0 u1 m0 m1 v0 v1, phase1 0 W gs t0.a t0.c w0 = .ok (u0, m0) ∧ phase1 1 W gs t1.a t1.c w1 = .ok (u1, m1) ∧
      phase2 0 W gs t0.b t0.c t0.d m1 u0 = .ok v0 ∧ phase2 1 W gs t1.b t1.c t1.d m0 u1 = .ok v1 ∧
      WordsOk W m v0 ∧ WordsOk W m v1 ∧ m0.length = 2 * W * ands gs ∧ m1.length = 2 * W * ands gs ∧
      ∀ k < 128 * W, ∀ i < m, recon v0 v1 k i = evalGates gs (recon w0 w1 k) i := by
  intro gs
  induction gs with
  | nil =>
    intro t0 t1 w0 w1 h0 h1 _ _ _
    exact ⟨w0, w1, [], [], w0, w1, rfl, rfl, rfl, rfl, h0, h1, rfl, rfl, fun _ _ _ _ => rfl⟩
  | cons g gs ih =>
    intro t0 t1 w0 w1 h0 h1 hg hl ht
    have hgs : ∀ g ∈ gs, GateOk m g := fun h hh => hg h (by simp [hh])
    have gok := hg g (by simp)
    obtain ⟨rx0, lx0⟩ := h0.get gok.in0
    obtain ⟨ry0, ly0⟩ := h0.get gok.in1
    obtain ⟨rx1, lx1⟩ := h1.get gok.in0
    obtain ⟨ry1, ly1⟩ := h1.get gok.in1
    have o0 : g.out < w0.length := by rw [h0.1]; exact gok.out
    have o1 : g.out < w1.length := by rw [h1.1]; exact gok.out
    -- a linear gate with results z0, z1
    have linear : ∀ z0 z1, kind g.type ≠ .mult → z0.length = W → z1.length = W →
        (∀ k < 128 * W, (wbit z0 k ^^ wbit z1 k) = table g.type (recon w0 w1 k g.in0) (recon w0 w1 k g.in1)) →
        (∀ a c, phase1 0 W (g :: gs) a c w0 = phase1 0 W gs a c (w0.set g.out z0)) →
        (∀ a c, phase1 1 W (g :: gs) a c w1 = phase1 1 W gs a c (w1.set g.out z1)) →
        (∀ r b c d mm u, phase2 r W (g :: gs) b c d mm u = phase2 r W gs b c d mm u) →
        ∃ u0 u1 m0 m1 v0 v1, phase1 0 W (g :: gs) t0.a t0.c w0 = .ok (u0, m0) ∧
          phase1 1 W (g :: gs) t1.a t1.c w1 = .ok (u1, m1) ∧
          phase2 0 W (g :: gs) t0.b t0.c t0.d m1 u0 = .ok v0 ∧ phase2 1 W (g :: gs) t1.b t1.c t1.d m0 u1 = .ok v1 ∧
          WordsOk W m v0 ∧ WordsOk W m v1 ∧ m0.length = 2 * W * ands (g :: gs) ∧ m1.length = 2 * W * ands (g :: gs) ∧
          ∀ k < 128 * W, ∀ i < m, recon v0 v1 k i = evalGates (g :: gs) (recon w0 w1 k) i := by
      intro z0 z1 hk hz0 hz1 hbit p0 p1 p2
      have ha : ands (g :: gs) = ands gs := by rw [ands_cons, if_neg hk, Nat.add_zero]
      rw [ha] at ht ⊢
      obtain ⟨u0, u1, m0, m1, v0, v1, q1, q2, q3, q4, q5, q6, q7, q8, q9⟩ :=
        ih t0 t1 (w0.set g.out z0) (w1.set g.out z1) (h0.set _ hz0) (h1.set _ hz1) hgs hl.2 ht
      refine ⟨u0, u1, m0, m1, v0, v1, by rw [p0, q1], by rw [p1, q2], by rw [p2, q3], by rw [p2, q4], q5, q6, q7, q8, ?_⟩
      intro k hk i hi
      rw [q9 k hk i hi]
      simp only [evalGates]
      refine evalGates_congr gs _ _ hgs (fun j hj => ?_) i hi
      rw [recon_set h0.1 h1.1 gok.out]
      unfold evalGate
      by_cases hjo : j = g.out
      · rw [if_pos hjo, if_pos hjo, hbit k hk]
      · rw [if_neg hjo, if_neg hjo]
    cases hk : kind g.type with
    | copy =>
      have htab : ∀ a b, table g.type a b = a := by
        intro a b; cases hh : g.type <;> simp [hh, kind] at hk <;> rfl
      refine linear (w0.getD g.in0 []) (w1.getD g.in0 []) (by rw [hk]; simp) lx0 lx1 (fun k _ => ?_) (fun a c => ?_) (fun a c => ?_)
        (fun r b c d mm u => ?_)
      · rw [htab]; rfl
      · simp only [phase1, rx0, ry0, hk, ok_bind, wr_ok o0]
      · simp only [phase1, rx1, ry1, hk, ok_bind, wr_ok o1]
      · simp only [phase2, hk]
    | xor =>
      have htab : ∀ a b, table g.type a b = (a ^^ b) := by
        intro a b; cases hh : g.type <;> simp [hh, kind] at hk <;> rfl
      refine linear (xorW (w0.getD g.in0 []) (w0.getD g.in1 [])) (xorW (w1.getD g.in0 []) (w1.getD g.in1 []))
        (by rw [hk]; simp) (by simp [lx0, ly0, -List.getD_eq_getElem?_getD]) (by simp [lx1, ly1, -List.getD_eq_getElem?_getD])
        (fun k hk' => ?_) (fun a c => ?_) (fun a c => ?_) (fun r b c d mm u => ?_)
      · rw [htab, wbit_xor lx0 ly0 hk', wbit_xor lx1 ly1 hk']
        unfold recon
        generalize wbit (w0.getD g.in0 []) k = a1
        generalize wbit (w0.getD g.in1 []) k = a2
        generalize wbit (w1.getD g.in0 []) k = a3
        generalize wbit (w1.getD g.in1 []) k = a4
        revert a1 a2 a3 a4; decide
      · simp only [phase1, rx0, ry0, hk, ok_bind, wr_ok o0]
      · simp only [phase1, rx1, ry1, hk, ok_bind, wr_ok o1]
      · simp only [phase2, hk]
    | nxor =>
      have htab : ∀ a b, table g.type a b = !(a ^^ b) := by
        intro a b; cases hh : g.type <;> simp [hh, kind] at hk <;> rfl
      have lx : (xorW (w1.getD g.in0 []) (w1.getD g.in1 [])).length = W := by
        simp [lx1, ly1, -List.getD_eq_getElem?_getD]
      refine linear (xorW (w0.getD g.in0 []) (w0.getD g.in1 [])) (notW (xorW (w1.getD g.in0 []) (w1.getD g.in1 [])))
        (by rw [hk]; simp) (by simp [lx0, ly0, -List.getD_eq_getElem?_getD]) (by rw [notW_length, lx])
        (fun k hk' => ?_) (fun a c => ?_) (fun a c => ?_) (fun r b c d mm u => ?_)
      · rw [htab, wbit_xor lx0 ly0 hk', wbit_not lx hk', wbit_xor lx1 ly1 hk']
        unfold recon
        generalize wbit (w0.getD g.in0 []) k = a1
        generalize wbit (w0.getD g.in1 []) k = a2
        generalize wbit (w1.getD g.in0 []) k = a3
        generalize wbit (w1.getD g.in1 []) k = a4
        revert a1 a2 a3 a4; decide
      · simp only [phase1, rx0, ry0, hk, ok_bind]
        rw [if_neg (by decide), wr_ok o0, ok_bind]
      · simp only [phase1, rx1, ry1, hk, ok_bind]
        rw [if_pos (by decide), wr_ok o1, ok_bind]
      · simp only [phase2, hk]
    | bad => exact absurd hk gok.type
    | mult =>
      have hA : ands (g :: gs) = ands gs + 1 := by rw [ands_cons, if_pos hk]
      rw [hA, Nat.mul_add, Nat.mul_one] at ht
      have hF := hl.1 hk
      have la0 := ht.l0
      have la1 := ht.l1
      have lb0 : t0.b.length = t0.a.length := ht.h01.l1
      have lc1 : t1.c.length = t0.a.length := ht.h01.l2
      have ld1 : t1.d.length = t0.a.length := ht.h01.l3
      have lb1 : t1.b.length = t1.a.length := ht.h10.l1
      have lc0 : t0.c.length = t1.a.length := ht.h10.l2
      have ld0 : t0.d.length = t1.a.length := ht.h10.l3
      have ka0 : W ≤ t0.a.length := by rw [la0]; exact Nat.le_add_left _ _
      have ka1 : W ≤ t1.a.length := by rw [la1]; exact Nat.le_add_left _ _
      have kb0 : W ≤ t0.b.length := by rw [lb0]; exact ka0
      have kc1 : W ≤ t1.c.length := by rw [lc1]; exact ka0
      have kd1 : W ≤ t1.d.length := by rw [ld1]; exact ka0
      have kb1 : W ≤ t1.b.length := by rw [lb1]; exact ka1
      have kc0 : W ≤ t0.c.length := by rw [lc0]; exact ka1
      have kd0 : W ≤ t0.d.length := by rw [ld0]; exact ka1
      obtain ⟨x0, y0, x1, y1, z0, z1, s0, s1, e1, e2, e3, e4, r0, r1, lz0, lz1, hbit⟩ :=
        mult_ok hk lx0 ly0 lx1 ly1 (a0 := t0.a.take W) (a1 := t1.a.take W) (by simp [la0]) (by simp [la1])
          (ht.h01.take W) (ht.h10.take W)
      obtain ⟨u0, u1, m0, m1, v0, v1, q1, q2, q3, q4, q5, q6, q7, q8, q9⟩ :=
        ih ⟨t0.a.drop W, t0.b.drop W, t0.c.drop W, t0.d.drop W⟩ ⟨t1.a.drop W, t1.b.drop W, t1.c.drop W, t1.d.drop W⟩
          (w0.set g.out z0) (w1.set g.out z1) (h0.set _ lz0) (h1.set _ lz1) hgs hl.2
          ⟨ht.h01.drop W, ht.h10.drop W, by simp [la0], by simp [la1]⟩
      simp only at q1 q2 q3 q4
      have cond : ∀ h ∈ gs, ¬ Reads h g.out ∧ (kind h.type ≠ .mult → h.out ≠ g.out) :=
        fun h hh => ⟨(hF h hh).1, (hF h hh).2.2.2⟩
      have back : ∀ (w : List Word) (z : Word), g.out < w.length →
          (w.set g.out z).set g.out (w.getD g.out []) = w := by
        intro w z ho
        rw [List.set_set, List.getD_eq_getElem?_getD, List.getElem?_eq_getElem ho]
        simp
      -- the first loop on the unchanged wires
      have p0 := phase1_set (z := w0.getD g.out []) gs _ _ _ _ _ cond q1
      have p1 := phase1_set (z := w1.getD g.out []) gs _ _ _ _ _ cond q2
      rw [back _ _ o0] at p0
      rw [back _ _ o1] at p1
      have n0 : ∀ h ∈ gs, kind h.type ≠ .mult → h.out ≠ g.in0 := fun h hh _ => (hF h hh).2.1
      have n1 : ∀ h ∈ gs, kind h.type ≠ .mult → h.out ≠ g.in1 := fun h hh _ => (hF h hh).2.2.1
      have no : ∀ h ∈ gs, kind h.type ≠ .mult → h.out ≠ g.out := fun h hh => (hF h hh).2.2.2
      -- the second loop finds the inputs unchanged
      have rd0 : ∀ i, rd (u0.set g.out (w0.getD g.out [])) i = rd w0 i ∨ ¬ ∀ h ∈ gs, kind h.type ≠ .mult → h.out ≠ i := by
        intro i
        by_cases hc : ∀ h ∈ gs, kind h.type ≠ .mult → h.out ≠ i
        · left; unfold rd; rw [phase1_get gs _ _ _ _ _ hc p0]
        · right; exact hc
      have rd1 : ∀ i, rd (u1.set g.out (w1.getD g.out [])) i = rd w1 i ∨ ¬ ∀ h ∈ gs, kind h.type ≠ .mult → h.out ≠ i := by
        intro i
        by_cases hc : ∀ h ∈ gs, kind h.type ≠ .mult → h.out ≠ i
        · left; unfold rd; rw [phase1_get gs _ _ _ _ _ hc p1]
        · right; exact hc
      have fin : ∀ (u w : List Word) (z x : Word), g.out < w.length → u[g.out]? = (w.set g.out z)[g.out]? →
          (u.set g.out x).set g.out z = u ∧ g.out < u.length := by
        intro u w z x ho hu
        rw [List.getElem?_set_self ho] at hu
        obtain ⟨hlt, hval⟩ := List.getElem?_eq_some_iff.1 hu
        rw [List.set_set]
        refine ⟨?_, hlt⟩
        rw [← hval]
        simp
      obtain ⟨f0, l0⟩ := fin u0 w0 z0 (w0.getD g.out []) o0 (phase1_get gs _ _ _ _ _ no q1)
      obtain ⟨f1, l1⟩ := fin u1 w1 z1 (w1.getD g.out []) o1 (phase1_get gs _ _ _ _ _ no q2)
      refine ⟨u0.set g.out (w0.getD g.out []), u1.set g.out (w1.getD g.out []), (x0 ++ y0) ++ m0, (x1 ++ y1) ++ m1,
        v0, v1, ?_, ?_, ?_, ?_, q5, q6, ?_, ?_, ?_⟩
      · exact phase1_mult hk rx0 ry0 o0 ka0 kc0 s0 p0
      · exact phase1_mult hk rx1 ry1 o1 ka1 kc1 s1 p1
      · exact phase2_mult hk e3 e4 (((rd0 g.in0).resolve_right (fun h => h n0)).trans rx0)
          (((rd0 g.in1).resolve_right (fun h => h n1)).trans ry0) (by rw [List.length_set]; exact l0)
          kb0 kc0 kd0 r0 (by rw [f0, q3])
      · exact phase2_mult hk e1 e2 (((rd1 g.in0).resolve_right (fun h => h n0)).trans rx1)
          (((rd1 g.in1).resolve_right (fun h => h n1)).trans ry1) (by rw [List.length_set]; exact l1)
          kb1 kc1 kd1 r1 (by rw [f1, q4])
      · rw [hA, Nat.mul_add]; simp [e1, e2, q7]; omega
      · rw [hA, Nat.mul_add]; simp [e3, e4, q8]; omega
      · intro k hk' i hi
        rw [q9 k hk' i hi]
        simp only [evalGates]
        refine evalGates_congr gs _ _ hgs (fun j hj => ?_) i hi
        rw [recon_set h0.1 h1.1 gok.out]
        unfold evalGate
        by_cases hjo : j = g.out
        · rw [if_pos hjo, if_pos hjo, hbit k hk']; rfl
        · rw [if_neg hjo, if_neg hjo]

end Gmw
end SecJoin
