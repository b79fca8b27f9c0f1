import Verif.Cor.Live
import Mathlib.Data.List.Count
import Mathlib.Data.List.Induction
import Mathlib.Tactic.ByContra
/-!
# Lemmas on two parties with generators
-/
namespace SecJoin
namespace Live

/-! ## Updates -/

@[simp] theorem upd_same {α : Type} (f : Bool → α) (p : Bool) (v : α) : upd f p v p = v := by simp [upd]

theorem upd_ne {α : Type} (f : Bool → α) {p q : Bool} (v : α) (h : q ≠ p) : upd f p v q = f q := by simp [upd, h]

@[simp] theorem upd2_same {α : Type} (f : Bool → Nat → α) (p : Bool) (t : Nat) (v : α) : upd2 f p t v p t = v := by simp [upd2]

theorem upd2_ne {α : Type} (f : Bool → Nat → α) {p q : Bool} {t u : Nat} (v : α) (h : ¬ (q = p ∧ u = t)) : upd2 f p t v q u = f q u := by
  simp only [upd2]; rw [if_neg h]

/-- No abort. -/
def Calm (as : List Act) : Prop := ∀ a ∈ as, ∀ p, a ≠ .abort p

theorem run_append (P : Par) (s : St) (as bs : List Act) : run P s (as ++ bs) = run P (run P s as) bs := by
  simp [run, List.foldl_append]

theorem run_cons (P : Par) (s : St) (a : Act) (as : List Act) : run P s (a :: as) = run P (step P s a) as := rfl

/-! ## Invariant -/

/-- The steps a coroutine has done. -/
def done (P : Par) (s : St) (p : Bool) (t : Nat) : List Op := (P.prog p t).take (s.pos p t)

structure Inv (P : Par) (s : St) : Prop where
  pos : ∀ p t, s.pos p t ≤ (P.prog p t).length
  sent : ∀ p t, s.sent p t = (done P s p t).count .send
  rcvd : ∀ p t, s.rcvd p t = (done P s p t).count .recv
  raised : ∀ p e, s.raised p e = true ↔ ∃ t, .raise e ∈ done P s p t
  want : ∀ p w, w < s.want p ↔ ∃ t b, .start b ∈ done P s p t ∧ w ≤ b
  cut : ∀ p, s.cut p = P.nb
  ready : ∀ p b, s.ready p b = true → launched s p b = true ∧ (P.mock || launched s (!p) b) = true
  pc : ∀ p, s.pc p ≤ 2 * (P.nb + P.nc - 1)

theorem inv_init (P : Par) : Inv P (init P) := by
  refine ⟨?_, ?_, ?_, ?_, ?_, ?_, ?_, ?_⟩ <;> simp [init, done]

theorem done_upd {P : Par} {s : St} {p : Bool} {t : Nat} {o : Op} (ho : (P.prog p t)[s.pos p t]? = some o) (s' : St)
    (hs : s'.pos = upd2 s.pos p t (s.pos p t + 1)) :
    done P s' p t = done P s p t ++ [o] ∧ ∀ q u, ¬ (q = p ∧ u = t) → done P s' q u = done P s q u := by
  obtain ⟨h1, h2⟩ := List.getElem?_eq_some_iff.1 ho
  constructor
  · unfold done
    rw [hs, upd2_same, List.take_add_one, ho]
    rfl
  · intro q u h
    unfold done
    rw [hs, upd2_ne _ _ h]

theorem inv_op {P : Par} {s : St} {p : Bool} {t : Nat} {o : Op} (h : Inv P s) (ho : (P.prog p t)[s.pos p t]? = some o) {s' : St}
    (hpos : s'.pos = upd2 s.pos p t (s.pos p t + 1))
    (hsent : s'.sent = if o = .send then upd2 s.sent p t (s.sent p t + 1) else s.sent)
    (hrcvd : s'.rcvd = if o = .recv then upd2 s.rcvd p t (s.rcvd p t + 1) else s.rcvd)
    (hraised : ∀ q e, s'.raised q e = true ↔ s.raised q e = true ∨ (q = p ∧ o = .raise e))
    (hwant : ∀ q w, w < s'.want q ↔ w < s.want q ∨ (q = p ∧ ∃ b, o = .start b ∧ w ≤ b))
    (hpc : s'.pc = s.pc) (hready : s'.ready = s.ready) (hcut : s'.cut = s.cut) : Inv P s' := by
  obtain ⟨d1, d2⟩ := done_upd ho s' hpos
  obtain ⟨h1, -⟩ := List.getElem?_eq_some_iff.1 ho
  have hmem : ∀ q x, (∃ u, x ∈ done P s' q u) ↔ (∃ u, x ∈ done P s q u) ∨ (q = p ∧ o = x) := by
    intro q x
    constructor
    · rintro ⟨u, hu⟩
      by_cases e : q = p ∧ u = t
      · obtain ⟨rfl, rfl⟩ := e
        rw [d1, List.mem_append, List.mem_singleton] at hu
        rcases hu with hu | hu
        · exact .inl ⟨_, hu⟩
        · exact .inr ⟨rfl, hu.symm⟩
      · rw [d2 _ _ e] at hu
        exact .inl ⟨_, hu⟩
    · rintro (⟨u, hu⟩ | ⟨rfl, rfl⟩)
      · refine ⟨u, ?_⟩
        by_cases e : q = p ∧ u = t
        · obtain ⟨rfl, rfl⟩ := e
          rw [d1]
          exact List.mem_append_left _ hu
        · rw [d2 _ _ e]
          exact hu
      · exact ⟨t, by rw [d1]; simp⟩
  refine ⟨?_, ?_, ?_, ?_, ?_, ?_, ?_, ?_⟩
  · intro q u
    rw [hpos]
    by_cases e : q = p ∧ u = t
    · obtain ⟨rfl, rfl⟩ := e
      rw [upd2_same]
      exact h1
    · rw [upd2_ne _ _ e]
      exact h.pos q u
  · intro q u
    rw [hsent]
    by_cases e : q = p ∧ u = t
    · obtain ⟨rfl, rfl⟩ := e
      rw [d1, List.count_append, ← h.sent]
      split
      · rename_i ho'
        subst ho'
        simp
      · rename_i ho'
        simp [ho']
    · rw [d2 _ _ e, ← h.sent]
      split
      · rw [upd2_ne _ _ e]
      · rfl
  · intro q u
    rw [hrcvd]
    by_cases e : q = p ∧ u = t
    · obtain ⟨rfl, rfl⟩ := e
      rw [d1, List.count_append, ← h.rcvd]
      split
      · rename_i ho'
        subst ho'
        simp
      · rename_i ho'
        simp [ho']
    · rw [d2 _ _ e, ← h.rcvd]
      split
      · rw [upd2_ne _ _ e]
      · rfl
  · intro q e
    rw [hraised, h.raised, hmem]
  · intro q w
    rw [hwant, h.want]
    constructor
    · rintro (⟨u, b, hu, hb⟩ | ⟨rfl, b, ho', hb⟩)
      · obtain ⟨u', hu'⟩ := (hmem q (.start b)).2 (.inl ⟨u, hu⟩)
        exact ⟨u', b, hu', hb⟩
      · obtain ⟨u', hu'⟩ := (hmem q (.start b)).2 (.inr ⟨rfl, ho'⟩)
        exact ⟨u', b, hu', hb⟩
    · rintro ⟨u, b, hu, hb⟩
      rcases (hmem q (.start b)).1 ⟨u, hu⟩ with ⟨u', hu'⟩ | ⟨rfl, ho'⟩
      · exact .inl ⟨u', b, hu', hb⟩
      · exact .inr ⟨rfl, b, ho', hb⟩
  · intro q
    rw [hcut]
    exact h.cut q
  · intro q b hr
    have : ∀ r, launched s' r b = launched s r b := fun r => by simp [launched, hpc, hcut]
    rw [this, this]
    rw [hready] at hr
    exact h.ready q b hr
  · intro q
    rw [hpc]
    exact h.pc q

theorem launched_mono {s s' : St} {p : Bool} {b : Nat} (hpc : ∀ p, s.pc p ≤ s'.pc p) (hc : s'.cut = s.cut) (h : launched s p b = true) :
    launched s' p b = true := by
  simp only [launched, Bool.and_eq_true, decide_eq_true_eq, hc] at h ⊢
  have := hpc p
  omega

theorem inv_pc {P : Par} {s : St} {p : Bool} (h : Inv P s) (hb : s.pc p + 1 ≤ 2 * (P.nb + P.nc - 1)) :
    Inv P { s with pc := upd s.pc p (s.pc p + 1) } := by
  have hm : ∀ q, s.pc q ≤ (upd s.pc p (s.pc p + 1)) q := by
    intro q
    by_cases e : q = p
    · subst e; rw [upd_same]; omega
    · rw [upd_ne _ _ e]; exact Nat.le_refl _
  refine ⟨h.pos, h.sent, h.rcvd, h.raised, h.want, h.cut, ?_, ?_⟩
  · intro q b hr
    obtain ⟨a, d⟩ := h.ready q b hr
    refine ⟨launched_mono (s := s) hm rfl a, ?_⟩
    rw [Bool.or_eq_true] at d ⊢
    rcases d with d | d
    · exact .inl d
    · exact .inr (launched_mono (s := s) hm rfl d)
  · intro q
    by_cases e : q = p
    · subst e; simp only [upd_same]; exact hb
    · simp only [upd_ne _ _ e]; exact h.pc q

theorem inv_ready {P : Par} {s : St} {p : Bool} {b : Nat} (h : Inv P s) (hl : launched s p b = true)
    (hl' : (P.mock || launched s (!p) b) = true) : Inv P { s with ready := upd2 s.ready p b true } := by
  refine ⟨h.pos, h.sent, h.rcvd, h.raised, h.want, h.cut, ?_, h.pc⟩
  intro q c hr
  by_cases e : q = p ∧ c = b
  · obtain ⟨rfl, rfl⟩ := e
    exact ⟨hl, hl'⟩
  · simp only [upd2_ne _ _ e] at hr
    exact h.ready q c hr

theorem inv_step {P : Par} {s : St} {a : Act} (h : Inv P s) (ha : ∀ p, a ≠ .abort p) : Inv P (step P s a) := by
  cases a with
  | abort p => exact absurd rfl (ha p)
  | gen p =>
    simp only [step, stepGen]
    have hp := h.pc p
    split
    · split
      · exact inv_pc h (by omega)
      · exact h
    · split
      · exact inv_pc h (by omega)
      · exact h
  | finish p b =>
    simp only [step, stepFinish]
    split
    · rename_i hl
      rw [Bool.and_eq_true] at hl
      exact inv_ready h hl.1 hl.2
    · exact h
  | op p t =>
    simp only [step, stepOp]
    split
    · exact h
    · rename_i b ho
      refine inv_op h ho rfl (by simp) (by simp) (by simp) ?_ rfl rfl rfl
      intro q w
      by_cases e : q = p
      · subst e
        simp only [upd_same, true_and, Op.start.injEq, exists_eq_left']
        omega
      · simp [upd_ne _ _ e, e]
    · rename_i b ho
      split
      · exact inv_op h ho rfl (by simp) (by simp) (by simp) (by simp) rfl rfl rfl
      · exact h
    · rename_i ho
      exact inv_op h ho rfl (by simp) (by simp) (by simp) (by simp) rfl rfl rfl
    · rename_i ho
      split
      · exact inv_op h ho rfl (by simp) (by simp) (by simp) (by simp) rfl rfl rfl
      · exact h
    · rename_i e ho
      refine inv_op h ho rfl (by simp) (by simp) ?_ (by simp) rfl rfl rfl
      intro q e'
      by_cases c : q = p ∧ e' = e
      · obtain ⟨rfl, rfl⟩ := c
        simp
      · simp only [upd2_ne _ _ c, Op.raise.injEq]
        constructor
        · exact .inl
        · rintro (x | ⟨rfl, rfl⟩)
          · exact x
          · exact absurd ⟨rfl, rfl⟩ c
    · rename_i e ho
      split
      · exact inv_op h ho rfl (by simp) (by simp) (by simp) (by simp) rfl rfl rfl
      · exact h

theorem inv_run {P : Par} {s : St} {as : List Act} (h : Inv P s) (ha : Calm as) : Inv P (run P s as) := by
  induction as generalizing s with
  | nil => exact h
  | cons a as ih => exact ih (inv_step h (ha a (by simp))) (fun x hx => ha x (by simp [hx]))

/-! ## Order of states -/

structure Le (x y : St) : Prop where
  pos : ∀ p t, x.pos p t ≤ y.pos p t
  pc : ∀ p, x.pc p ≤ y.pc p
  ready : ∀ p b, x.ready p b = true → y.ready p b = true

theorem Le.refl (x : St) : Le x x := ⟨fun _ _ => Nat.le_refl _, fun _ => Nat.le_refl _, fun _ _ h => h⟩

theorem Le.trans {x y z : St} (h : Le x y) (k : Le y z) : Le x z :=
  ⟨fun p t => Nat.le_trans (h.pos p t) (k.pos p t), fun p => Nat.le_trans (h.pc p) (k.pc p), fun p b e => k.ready p b (h.ready p b e)⟩

theorem upd2_le (f : Bool → Nat → Nat) (p : Bool) (t : Nat) (q : Bool) (u : Nat) : f q u ≤ upd2 f p t (f p t + 1) q u := by
  by_cases e : q = p ∧ u = t
  · obtain ⟨rfl, rfl⟩ := e; rw [upd2_same]; omega
  · rw [upd2_ne _ _ e]; exact Nat.le_refl _

theorem upd_le (f : Bool → Nat) (p : Bool) (q : Bool) : f q ≤ upd f p (f p + 1) q := by
  by_cases e : q = p
  · subst e; rw [upd_same]; omega
  · rw [upd_ne _ _ e]; exact Nat.le_refl _

theorem le_step (P : Par) (s : St) (a : Act) : Le s (step P s a) := by
  cases a with
  | abort p =>
    simp only [step, stepAbort]
    split <;> exact ⟨fun _ _ => Nat.le_refl _, fun _ => Nat.le_refl _, fun _ _ h => h⟩
  | gen p =>
    simp only [step, stepGen]
    split <;> split <;> first
      | exact Le.refl s
      | exact ⟨fun _ _ => Nat.le_refl _, fun q => upd_le s.pc p q, fun _ _ h => h⟩
  | finish p b =>
    simp only [step, stepFinish]
    split
    · refine ⟨fun _ _ => Nat.le_refl _, fun _ => Nat.le_refl _, fun q c h => ?_⟩
      by_cases e : q = p ∧ c = b
      · obtain ⟨rfl, rfl⟩ := e; simp
      · simp only [upd2_ne _ _ e]; exact h
    · exact Le.refl s
  | op p t =>
    simp only [step, stepOp]
    split
    · exact Le.refl s
    · exact ⟨fun q u => upd2_le s.pos p t q u, fun _ => Nat.le_refl _, fun _ _ h => h⟩
    · split
      · exact ⟨fun q u => upd2_le s.pos p t q u, fun _ => Nat.le_refl _, fun _ _ h => h⟩
      · exact Le.refl s
    · exact ⟨fun q u => upd2_le s.pos p t q u, fun _ => Nat.le_refl _, fun _ _ h => h⟩
    · split
      · exact ⟨fun q u => upd2_le s.pos p t q u, fun _ => Nat.le_refl _, fun _ _ h => h⟩
      · exact Le.refl s
    · exact ⟨fun q u => upd2_le s.pos p t q u, fun _ => Nat.le_refl _, fun _ _ h => h⟩
    · split
      · exact ⟨fun q u => upd2_le s.pos p t q u, fun _ => Nat.le_refl _, fun _ _ h => h⟩
      · exact Le.refl s

theorem le_run (P : Par) (s : St) (as : List Act) : Le s (run P s as) := by
  induction as generalizing s with
  | nil => exact Le.refl s
  | cons a as ih => exact (le_step P s a).trans (ih _)

/-! ### What follows from the order -/

theorem done_prefix {P : Par} {x y : St} (h : Le x y) (p : Bool) (t : Nat) : done P x p t <+: done P y p t :=
  (List.take_prefix_take_left (h.pos p t))

theorem want_le {P : Par} {x y : St} (hx : Inv P x) (hy : Inv P y) (h : Le x y) (p : Bool) : x.want p ≤ y.want p := by
  by_contra hc
  obtain ⟨t, b, hb, hw⟩ := (hx.want p (y.want p)).1 (by omega)
  have := (hy.want p (y.want p)).2 ⟨t, b, (done_prefix h p t).subset hb, hw⟩
  omega

theorem sent_le {P : Par} {x y : St} (hx : Inv P x) (hy : Inv P y) (h : Le x y) (p : Bool) (t : Nat) : x.sent p t ≤ y.sent p t := by
  rw [hx.sent, hy.sent]
  exact (done_prefix h p t).sublist.count_le _

theorem raised_le {P : Par} {x y : St} (hx : Inv P x) (hy : Inv P y) (h : Le x y) (p : Bool) (e : Nat) (hr : x.raised p e = true) :
    y.raised p e = true := by
  obtain ⟨t, ht⟩ := (hx.raised p e).1 hr
  exact (hy.raised p e).2 ⟨t, (done_prefix h p t).subset ht⟩

theorem rcvd_eq {P : Par} {x y : St} (hx : Inv P x) (hy : Inv P y) {p : Bool} {t : Nat} (h : x.pos p t = y.pos p t) :
    x.rcvd p t = y.rcvd p t := by
  rw [hx.rcvd, hy.rcvd, done, done, h]

theorem launched_le {P : Par} {x y : St} (hx : Inv P x) (hy : Inv P y) (h : Le x y) (p : Bool) (b : Nat) (hl : launched x p b = true) :
    launched y p b = true :=
  launched_mono h.pc (by funext q; rw [hx.cut, hy.cut]) hl

/-- A coroutine that can go on in `x` can do so in a later state in which it is at the same place. -/
theorem op_go {P : Par} {x y : St} (hx : Inv P x) (hy : Inv P y) (h : Le x y) {p : Bool} {t : Nat} (he : x.pos p t = y.pos p t) :
    (stepOp P x p t).pos p t ≤ (stepOp P y p t).pos p t := by
  unfold stepOp
  rw [← he]
  cases ho : (P.prog p t)[x.pos p t]? with
  | none => simp [he]
  | some o =>
    cases o with
    | start b => simp
    | send => simp
    | raise e => simp
    | get b =>
      dsimp only
      by_cases hr : x.ready p b = true
      · rw [if_pos hr, if_pos (h.ready p b hr)]
        simp
      · rw [if_neg hr]
        split
        · simp
        · exact Nat.le_of_eq he
    | recv =>
      dsimp only
      have e1 := rcvd_eq hx hy he
      have e2 := sent_le hx hy h (!p) t
      by_cases hr : x.rcvd p t < x.sent (!p) t
      · rw [if_pos hr, if_pos (by omega)]
        simp
      · rw [if_neg hr]
        split
        · simp
        · exact Nat.le_of_eq he
    | wait e =>
      dsimp only
      by_cases hr : x.raised p e = true
      · rw [if_pos hr, if_pos (raised_le hx hy h p e hr)]
        simp
      · rw [if_neg hr]
        split
        · simp
        · exact Nat.le_of_eq he

/-- Only the place of the coroutine itself changes. -/
theorem op_pos_ne (P : Par) (x : St) (p : Bool) (t : Nat) {q : Bool} {u : Nat} (h : ¬ (q = p ∧ u = t)) :
    (stepOp P x p t).pos q u = x.pos q u := by
  unfold stepOp
  cases ho : (P.prog p t)[x.pos p t]? with
  | none => rfl
  | some o => cases o <;> dsimp only <;> (try split) <;> first | rfl | exact upd2_ne _ _ h

theorem op_pc (P : Par) (x : St) (p : Bool) (t : Nat) : (stepOp P x p t).pc = x.pc := by
  unfold stepOp
  cases ho : (P.prog p t)[x.pos p t]? with
  | none => rfl
  | some o => cases o <;> dsimp only <;> (try split) <;> rfl

theorem op_ready (P : Par) (x : St) (p : Bool) (t : Nat) : (stepOp P x p t).ready = x.ready := by
  unfold stepOp
  cases ho : (P.prog p t)[x.pos p t]? with
  | none => rfl
  | some o => cases o <;> dsimp only <;> (try split) <;> rfl

theorem op_pos_le (P : Par) (x : St) (p : Bool) (t : Nat) : (stepOp P x p t).pos p t ≤ x.pos p t + 1 := by
  unfold stepOp
  cases ho : (P.prog p t)[x.pos p t]? with
  | none => simp
  | some o => cases o <;> dsimp only <;> (try split) <;> simp

/-- Whatever can happen in `x` has happened or can happen in a later state. -/
theorem sim {P : Par} {x y : St} (hx : Inv P x) (hy : Inv P y) (h : Le x y) {a : Act} (ha : ∀ p, a ≠ .abort p) :
    Le (step P x a) y ∨ Le (step P x a) (step P y a) := by
  cases a with
  | abort p => exact absurd rfl (ha p)
  | gen p =>
    by_cases he : x.pc p < y.pc p
    · left
      have : (step P x (.gen p)).pc p ≤ x.pc p + 1 := by
        simp only [step, stepGen]
        split <;> split <;> simp
      refine ⟨?_, ?_, ?_⟩
      · intro q t
        have : (step P x (.gen p)).pos = x.pos := by simp only [step, stepGen]; split <;> split <;> rfl
        rw [this]; exact h.pos q t
      · intro q
        by_cases e : q = p
        · subst e; omega
        · have : (step P x (.gen p)).pc q = x.pc q := by
            simp only [step, stepGen]; split <;> split <;> first | rfl | exact upd_ne _ _ e
          rw [this]; exact h.pc q
      · intro q b
        have : (step P x (.gen p)).ready = x.ready := by simp only [step, stepGen]; split <;> split <;> rfl
        rw [this]; exact h.ready q b
    · have he : x.pc p = y.pc p := Nat.le_antisymm (h.pc p) (by omega)
      right
      have hw := want_le hx hy h p
      simp only [step, stepGen]
      rw [← he]
      have key : Le { x with pc := upd x.pc p (x.pc p + 1) } { y with pc := upd y.pc p (x.pc p + 1) } := by
        refine ⟨h.pos, ?_, h.ready⟩
        intro q
        by_cases e : q = p
        · subst e; simp
        · simp only [upd_ne _ _ e]; exact h.pc q
      have keep : Le x { y with pc := upd y.pc p (x.pc p + 1) } := by
        refine ⟨h.pos, ?_, h.ready⟩
        intro q
        by_cases e : q = p
        · subst e; simp
        · simp only [upd_ne _ _ e]; exact h.pc q
      by_cases hm : x.pc p % 2 = 0
      · rw [if_pos hm, if_pos hm]
        by_cases hc : x.pc p / 2 < P.nb + P.nc - 1 ∧ (x.pc p / 2 < P.nb → x.pc p / 2 < x.want p)
        · rw [if_pos hc, if_pos ⟨hc.1, fun k => by have := hc.2 k; omega⟩]
          exact key
        · rw [if_neg hc]
          split
          · exact keep
          · exact h
      · rw [if_neg hm, if_neg hm]
        by_cases hc : P.nc ≤ x.pc p / 2 + 1 → x.ready p (x.pc p / 2 + 1 - P.nc) = true ∨ x.cut p ≤ x.pc p / 2 + 1 - P.nc
        · rw [if_pos hc, if_pos ?_]
          · exact key
          · intro k
            rcases hc k with r | r
            · exact .inl (h.ready p _ r)
            · right; rw [hy.cut, ← hx.cut p]; exact r
        · rw [if_neg hc]
          split
          · exact keep
          · exact h
  | finish p b =>
    right
    simp only [step, stepFinish]
    by_cases hc : (launched x p b && (P.mock || launched x (!p) b)) = true
    · rw [if_pos hc]
      rw [Bool.and_eq_true, Bool.or_eq_true] at hc
      rw [if_pos (by
        rw [Bool.and_eq_true, Bool.or_eq_true]
        exact ⟨launched_le hx hy h p b hc.1, hc.2.imp id (launched_le hx hy h (!p) b)⟩)]
      refine ⟨h.pos, h.pc, ?_⟩
      intro q c hr
      by_cases e : q = p ∧ c = b
      · obtain ⟨rfl, rfl⟩ := e; simp
      · simp only [upd2_ne _ _ e] at hr ⊢; exact h.ready q c hr
    · rw [if_neg hc]
      exact h.trans (le_step P y (.finish p b))
  | op p t =>
    by_cases he : x.pos p t < y.pos p t
    · left
      have := op_pos_le P x p t
      refine ⟨?_, ?_, ?_⟩
      · intro q u
        by_cases e : q = p ∧ u = t
        · obtain ⟨rfl, rfl⟩ := e
          simp only [step]; omega
        · simp only [step, op_pos_ne P x p t e]; exact h.pos q u
      · intro q; simp only [step, op_pc]; exact h.pc q
      · intro q b; simp only [step, op_ready]; exact h.ready q b
    · have he : x.pos p t = y.pos p t := Nat.le_antisymm (h.pos p t) (by omega)
      right
      refine ⟨?_, ?_, ?_⟩
      · intro q u
        by_cases e : q = p ∧ u = t
        · obtain ⟨rfl, rfl⟩ := e
          exact op_go hx hy h he
        · simp only [step, op_pos_ne P _ p t e]; exact h.pos q u
      · intro q; simp only [step, op_pc]; exact h.pc q
      · intro q b; simp only [step, op_ready]; exact h.ready q b

theorem sim_run {P : Par} {x y : St} {as : List Act} (hx : Inv P x) (hy : Inv P y) (h : Le x y) (ha : Calm as) :
    ∃ bs, Calm bs ∧ Le (run P x as) (run P y bs) := by
  induction as generalizing x y with
  | nil => exact ⟨[], by simp [Calm], h⟩
  | cons a as ih =>
    have ha0 := ha a (by simp)
    have ha1 : Calm as := fun z hz => ha z (by simp [hz])
    rcases sim hx hy h ha0 with k | k
    · obtain ⟨bs, h1, h2⟩ := ih (inv_step hx ha0) hy k ha1
      exact ⟨bs, h1, h2⟩
    · obtain ⟨bs, h1, h2⟩ := ih (inv_step hx ha0) (inv_step hy ha0) k ha1
      refine ⟨a :: bs, ?_, h2⟩
      intro z hz
      rcases List.mem_cons.1 hz with rfl | hz
      · exact ha0
      · exact h1 z hz

/-! ## The generators -/

/-- Steps of the generators only. -/
def Quiet (as : List Act) : Prop := ∀ a ∈ as, (∃ p, a = .gen p) ∨ ∃ p b, a = .finish p b

theorem Quiet.calm {as : List Act} (h : Quiet as) : Calm as := by
  intro a ha p e
  rcases h a ha with ⟨q, rfl⟩ | ⟨q, b, rfl⟩ <;> cases e

theorem Quiet.append {as bs : List Act} (h : Quiet as) (k : Quiet bs) : Quiet (as ++ bs) := by
  intro a ha
  rcases List.mem_append.1 ha with ha | ha
  · exact h a ha
  · exact k a ha

theorem quiet_keeps {P : Par} {s : St} {as : List Act} (h : Quiet as) : (run P s as).pos = s.pos ∧ (run P s as).want = s.want := by
  induction as generalizing s with
  | nil => exact ⟨rfl, rfl⟩
  | cons a as ih =>
    rw [run_cons]
    obtain ⟨h1, h2⟩ := ih (s := step P s a) (fun z hz => h z (by simp [hz]))
    rw [h1, h2]
    rcases h a (by simp) with ⟨p, rfl⟩ | ⟨p, b, rfl⟩
    · simp only [step, stepGen]; split <;> split <;> exact ⟨rfl, rfl⟩
    · simp only [step, stepFinish]; split <;> exact ⟨rfl, rfl⟩

/-- The loop of a generator goes on to batch `n` when the batches before are ready. -/
theorem gen_alone {P : Par} {n : Nat} (hc : 0 < P.nc) (hn : n < P.nb + P.nc - 1) (p : Bool) (k : Nat) (s : St) (hk : 2 * n + 1 - s.pc p = k)
    (hw : ∀ i, i ≤ n → i < P.nb → i < s.want p) (hr : ∀ b < n, b < P.nb → s.ready p b = true) (hi : Inv P s) :
    ∃ as, (∀ a ∈ as, a = Act.gen p) ∧ 2 * n < (run P s as).pc p := by
  induction k generalizing s with
  | zero => exact ⟨[], by simp, by show 2 * n < s.pc p; omega⟩
  | succ k ih =>
    have hstep : step P s (.gen p) = { s with pc := upd s.pc p (s.pc p + 1) } := by
      simp only [step, stepGen]
      split
      · rw [if_pos]
        refine ⟨by omega, fun h => hw _ (by omega) h⟩
      · rw [if_pos]
        intro h
        by_cases hb : s.pc p / 2 + 1 - P.nc < P.nb
        · exact .inl (hr _ (by omega) hb)
        · right; rw [hi.cut]; omega
    obtain ⟨as, h1, h2⟩ := ih (step P s (.gen p)) (by rw [hstep]; simp only [upd_same]; omega) (by rw [hstep]; exact hw)
      (by rw [hstep]; exact hr) (inv_step hi (by intro q h; cases h))
    refine ⟨.gen p :: as, ?_, h2⟩
    intro a ha
    rcases List.mem_cons.1 ha with rfl | ha
    · rfl
    · exact h1 a ha

theorem gen_on {P : Par} {n : Nat} (hc : 0 < P.nc) (hn : n < P.nb + P.nc - 1) (p : Bool) (k : Nat) (s : St) (hk : 2 * n + 1 - s.pc p = k)
    (hw : ∀ i, i ≤ n → i < P.nb → i < s.want p) (hr : ∀ b < n, b < P.nb → s.ready p b = true) (hi : Inv P s) :
    ∃ as, Quiet as ∧ 2 * n < (run P s as).pc p := by
  obtain ⟨as, h1, h2⟩ := gen_alone hc hn p k s hk hw hr hi
  exact ⟨as, fun a ha => .inl ⟨p, h1 a ha⟩, h2⟩

/-- The batches that both parties have started become ready. -/
theorem gen_ready {P : Par} (hc : 0 < P.nc) (n : Nat) (hn : n ≤ P.nb) (s : St) (hi : Inv P s) (hw : ∀ p, n ≤ s.want p) :
    ∃ as, Quiet as ∧ ∀ p, ∀ b < n, (run P s as).ready p b = true := by
  induction n generalizing s with
  | zero => exact ⟨[], by simp [Quiet], by simp⟩
  | succ n ih =>
    obtain ⟨as, q1, r1⟩ := ih (by omega) s hi (fun p => by have := hw p; omega)
    have i1 := inv_run hi q1.calm
    have w1 := (quiet_keeps (P := P) (s := s) q1).2
    obtain ⟨bs, q2, r2⟩ := gen_on (n := n) hc (by omega) false _ (run P s as) rfl
      (fun i h _ => by rw [w1]; have := hw false; omega) (fun b hb _ => r1 false b hb) i1
    have i2 := inv_run i1 q2.calm
    have w2 := (quiet_keeps (P := P) (s := run P s as) q2).2
    have l2 := le_run P (run P s as) bs
    obtain ⟨cs, q3, r3⟩ := gen_on (n := n) hc (by omega) true _ (run P (run P s as) bs) rfl
      (fun i h _ => by rw [w2, w1]; have := hw true; omega) (fun b hb _ => l2.ready true b (r1 true b hb)) i2
    have i3 := inv_run i2 q3.calm
    have l3 := le_run P (run P (run P s as) bs) cs
    have lau : ∀ p, launched (run P (run P (run P s as) bs) cs) p n = true := by
      intro p
      simp only [launched, Bool.and_eq_true, decide_eq_true_eq, i3.cut]
      refine ⟨?_, by omega⟩
      cases p
      · have := l3.pc false; omega
      · exact r3
    generalize hs3 : run P (run P (run P s as) bs) cs = s3 at i3 l3 lau
    have hf : ∀ p, step P s3 (.finish p n) = { s3 with ready := upd2 s3.ready p n true } := by
      intro p
      simp only [step, stepFinish, lau, Bool.and_self, Bool.or_true, if_true]
    have hf2 : step P (step P s3 (.finish false n)) (.finish true n) =
        { s3 with ready := upd2 (upd2 s3.ready false n true) true n true } := by
      rw [hf]
      simp only [step, stepFinish]
      have : ∀ p, launched { s3 with ready := upd2 s3.ready false n true } p n = true := lau
      simp only [this, Bool.and_self, Bool.or_true, if_true]
    refine ⟨as ++ (bs ++ (cs ++ [.finish false n, .finish true n])), ?_, ?_⟩
    · refine q1.append (q2.append (q3.append ?_))
      intro a ha
      simp only [List.mem_cons, List.not_mem_nil, or_false] at ha
      rcases ha with rfl | rfl
      · exact .inr ⟨_, _, rfl⟩
      · exact .inr ⟨_, _, rfl⟩
    · intro p b hb
      rw [run_append, run_append, run_append, hs3]
      show (step P (step P s3 (.finish false n)) (.finish true n)).ready p b = true
      rw [hf2]
      by_cases e : b = n
      · subst e
        cases p
        · simp only
          rw [upd2_ne _ _ (by simp), upd2_same]
        · simp
      · have e' : ∀ q, ¬ (p = q ∧ b = n) := fun q h => e h.2
        simp only [upd2_ne _ _ (e' _)]
        exact l3.ready p b (l2.ready p b (r1 p b (by omega)))

end Live
end SecJoin
