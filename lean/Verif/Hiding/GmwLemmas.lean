import Verif.Hiding.Gmw
import Verif.GMW.Level
/-!
# Lemmas: the correlations that fit a transcript
-/
namespace SecJoin
namespace Gmw

/-! ## Words -/

theorem xorW_cancel {x y : Word} {n : Nat} (hx : x.length = n) (hy : y.length = n) : xorW (xorW x y) y = x := by
  unfold xorW
  apply List.ext_getElem (by simp [hx, hy])
  intro i h1 h2
  simp [BitVec.xor_assoc]

theorem xorW_comm (x y : Word) : xorW x y = xorW y x := by
  unfold xorW
  exact List.zipWith_comm_of_comm fun x y => BitVec.xor_comm x y

theorem notW_notW (x : Word) : notW (notW x) = x := by
  unfold notW
  apply List.ext_getElem (by simp)
  intro i h1 h2
  simp [BitVec.xor_assoc]

theorem xorW_eq {a x m : Word} {n : Nat} (ha : a.length = n) (hx : x.length = n) : xorW a x = m ↔ m.length = n ∧ a = xorW m x := by
  constructor
  · rintro rfl
    exact ⟨by simp [ha, hx], (xorW_cancel ha hx).symm⟩
  · rintro ⟨hm, rfl⟩
    exact xorW_cancel hm hx

/-- The second party's half of a correlation is determined by its multiplier. -/
theorem ole_fit {m0 a0 m1 a1 : List Block} (h : Ole m0 a0 m1 a1) : a1 = xorW (andW m0 m1) a0 := by
  rw [h.eq, xorW_comm a0 a1, xorW_cancel (n := m0.length) h.l3 h.l1]

theorem ole_mk {m0 a0 m1 : List Block} (h0 : a0.length = m0.length) (h1 : m1.length = m0.length) :
    Ole m0 a0 m1 (xorW (andW m0 m1) a0) := by
  refine ⟨h0, h1, by simp [h0, h1], ?_⟩
  rw [xorW_comm a0, xorW_cancel (n := m0.length) (by simp [h1]) h0]

theorem SegsOk.symm : ∀ {s t : List (List Block × List Block)}, SegsOk s t → SegsOk t s
  | [], [], _ => trivial
  | a :: s, b :: t, h => ⟨h.1.symm, by rw [h.1.l2]; exact h.2.1, SegsOk.symm h.2.2⟩
  | [], _ :: _, h => h.elim
  | _ :: _, [], h => h.elim

theorem PoolOk.symm {p0 p1 : Pool} (h : PoolOk p0 p1) : PoolOk p1 p0 :=
  ⟨h.ole.symm, by rw [h.ole.l2]; exact h.even, h.segs.symm⟩

theorem SegsOk.sum : ∀ {s t : List (List Block × List Block)}, SegsOk s t →
    (s.map fun x => x.2.length).sum = (t.map fun x => x.2.length).sum
  | [], [], _ => rfl
  | a :: s, b :: t, h => by simp [SegsOk.sum h.2.2, h.1.l1, h.1.l3]
  | [], _ :: _, h => h.elim
  | _ :: _, [], h => h.elim

theorem PoolOk.total {p0 p1 : Pool} (h : PoolOk p0 p1) : p1.total = p0.total := by
  unfold Pool.total
  rw [h.segs.sum, h.ole.l3, h.ole.l1]

theorem TriplesOk.symm {k : Nat} {t0 t1 : Triples} (h : TriplesOk k t0 t1) : TriplesOk k t1 t0 := ⟨h.h10, h.h01, h.l1, h.l0⟩

/-! ## The fetch loop -/

/-- The two roles get the same blocks with the halves exchanged. -/
def swapT (t : Triples) : Triples := ⟨t.c, t.d, t.a, t.b⟩

theorem fetch_swap : ∀ (fuel need : Nat) (p : Pool), fetch 0 fuel need p = (fetch 1 fuel need p).map fun x => (swapT x.1, x.2) := by
  intro fuel
  induction fuel with
  | zero => intro need p; cases need <;> rfl
  | succ fuel ih =>
    intro need p
    cases need with
    | zero => rfl
    | succ need =>
      simp only [fetch]
      cases refill p with
      | error e => rfl
      | ok r =>
        simp only [ok_bind]
        split
        · rfl
        · cases cut (Nat.min (need + 1) (r.add.length / 2)) r.mult with
          | error e => rfl
          | ok x =>
            simp only [ok_bind]
            cases cut (Nat.min (need + 1) (r.add.length / 2)) x.2 with
            | error e => rfl
            | ok y =>
              simp only [ok_bind]
              cases cut (Nat.min (need + 1) (r.add.length / 2)) r.add with
              | error e => rfl
              | ok z =>
                simp only [ok_bind]
                cases cut (Nat.min (need + 1) (r.add.length / 2)) z.2 with
                | error e => rfl
                | ok v =>
                  simp only [ok_bind]
                  rw [ih]
                  cases fetch 1 fuel (need + 1 - Nat.min (need + 1) (r.add.length / 2)) ⟨y.2, v.2, r.segs⟩ with
                  | error e => rfl
                  | ok q => rfl

/-- One round of the fetch loop on the pool `r` after the refill. -/
theorem fetch_step {fuel need k : Nat} {p r : Pool} (hr : refill p = .ok r) (he : r.add.length % 2 = 0)
    (hm : r.mult.length = r.add.length) (hk : Nat.min (need + 1) (r.add.length / 2) = k) :
    fetch 1 (fuel + 1) (need + 1) p = (fetch 1 fuel (need + 1 - k) ⟨(r.mult.drop k).drop k, (r.add.drop k).drop k, r.segs⟩).map
      fun x => (⟨r.mult.take k ++ x.1.a, r.add.take k ++ x.1.b, (r.mult.drop k).take k ++ x.1.c,
        (r.add.drop k).take k ++ x.1.d⟩, x.2) := by
  have h2 : 2 * k ≤ r.add.length := by
    have : Nat.min (need + 1) (r.add.length / 2) ≤ r.add.length / 2 := Nat.min_le_right ..
    omega
  have h3 : ¬ (k = 0 ∧ r.add.length ≠ 0) := by
    rintro ⟨rfl, h⟩
    rcases Nat.le_total (need + 1) (r.add.length / 2) with h4 | h4
    · have : Nat.min (need + 1) (r.add.length / 2) = need + 1 := Nat.min_eq_left h4
      omega
    · have : Nat.min (need + 1) (r.add.length / 2) = r.add.length / 2 := Nat.min_eq_right h4
      omega
  simp only [fetch]
  rw [hr, ok_bind]
  simp only [hk]
  rw [if_neg h3, cut_ok (by omega), ok_bind, cut_ok (by rw [List.length_drop]; omega), ok_bind, cut_ok (by omega), ok_bind,
    cut_ok (by rw [List.length_drop]; omega), ok_bind]
  cases fetch 1 fuel (need + 1 - k) ⟨(r.mult.drop k).drop k, (r.add.drop k).drop k, r.segs⟩ with
  | error e => rfl
  | ok x => rfl

/-- The second party's correlations are determined by what the fetch loop gives, and every result that fits those of the first
party arises. -/
theorem fetch_fit1 : ∀ (fuel need : Nat) (p0 : Pool), (∃ p1, PoolOk p0 p1) → ∀ T0 q0, fetch 1 fuel need p0 = .ok (T0, q0) →
    ∀ T1 q1, Ole T0.a T0.b T1.a T1.b → Ole T0.c T0.d T1.c T1.d → PoolOk q0 q1 →
    ∃ p1, (PoolOk p0 p1 ∧ fetch 1 fuel need p1 = .ok (T1, q1)) ∧
      ∀ p, PoolOk p0 p ∧ fetch 1 fuel need p = .ok (T1, q1) → p = p1 := by
  intro fuel
  have base : ∀ fuel (p0 : Pool) T0 q0, fetch 1 fuel 0 p0 = .ok (T0, q0) →
      ∀ T1 q1, Ole T0.a T0.b T1.a T1.b → Ole T0.c T0.d T1.c T1.d → PoolOk q0 q1 →
      ∃ p1, (PoolOk p0 p1 ∧ fetch 1 fuel 0 p1 = .ok (T1, q1)) ∧
      ∀ p, PoolOk p0 p ∧ fetch 1 fuel 0 p = .ok (T1, q1) → p = p1 := by
    intro fuel p0 T0 q0 h T1 q1 h1 h2 hq
    have e : ∀ p : Pool, fetch 1 fuel 0 p = .ok (⟨[], [], [], []⟩, p) := fun p => by cases fuel <;> rfl
    rw [e] at h
    simp only [Except.ok.injEq, Prod.mk.injEq] at h
    obtain ⟨rfl, rfl⟩ := h
    obtain ⟨a, b, c, d⟩ := T1
    have ha : a = [] := List.eq_nil_of_length_eq_zero h1.l2
    have hb : b = [] := List.eq_nil_of_length_eq_zero h1.l3
    have hc : c = [] := List.eq_nil_of_length_eq_zero h2.l2
    have hd : d = [] := List.eq_nil_of_length_eq_zero h2.l3
    subst ha hb hc hd
    refine ⟨q1, ⟨hq, e q1⟩, ?_⟩
    rintro p ⟨_, hp⟩
    rw [e] at hp
    simp only [Except.ok.injEq, Prod.mk.injEq] at hp
    exact hp.2
  induction fuel with
  | zero =>
    intro need p0 hp T0 q0 h
    cases need with
    | zero => exact base 0 p0 T0 q0 h
    | succ need => simp [fetch] at h
  | succ fuel ih =>
    intro need p0 hp T0 q0 h T1 q1 h1 h2 hq
    cases need with
    | zero => exact base _ p0 T0 q0 h T1 q1 h1 h2 hq
    | succ need =>
      obtain ⟨pw, hpw⟩ := hp
      obtain ⟨r0, hr0⟩ : ∃ r0, refill p0 = .ok r0 := by
        cases e : refill p0 with
        | ok r => exact ⟨r, rfl⟩
        | error x => simp only [fetch, e] at h; cases h
      -- refilling, forwards and backwards
      have fwd : ∀ p, PoolOk p0 p → ∃ r, refill p = .ok r ∧ PoolOk r0 r := by
        intro p hp
        unfold refill at hr0 ⊢
        by_cases z : p0.add.length = 0
        · have z1 : p.add.length = 0 := by rw [hp.ole.l3, ← hp.ole.l1, z]
          rw [if_pos z] at hr0
          rw [if_pos z1]
          have hs := hp.segs
          match e0 : p0.segs, e1 : p.segs with
          | [], _ => rw [e0] at hr0; cases hr0
          | s :: ss, [] => rw [e0, e1] at hs; exact hs.elim
          | s :: ss, u :: us =>
            rw [e0] at hr0
            rw [e0, e1] at hs
            simp only [Except.ok.injEq] at hr0
            subst hr0
            exact ⟨_, rfl, ⟨hs.1, hs.2.1, hs.2.2⟩⟩
        · have z1 : p.add.length ≠ 0 := by rw [hp.ole.l3, ← hp.ole.l1]; exact z
          rw [if_neg z] at hr0
          rw [if_neg z1]
          simp only [Except.ok.injEq] at hr0
          subst hr0
          exact ⟨p, rfl, hp⟩
      have bwd : ∀ r, PoolOk r0 r → ∃ p, PoolOk p0 p ∧ refill p = .ok r ∧ ∀ p', PoolOk p0 p' → refill p' = .ok r → p' = p := by
        intro r hr
        unfold refill at hr0 ⊢
        by_cases z : p0.add.length = 0
        · rw [if_pos z] at hr0
          have zm : p0.mult = [] := List.eq_nil_of_length_eq_zero (by rw [← hpw.ole.l1, z])
          have za : p0.add = [] := List.eq_nil_of_length_eq_zero z
          match e0 : p0.segs with
          | [] => rw [e0] at hr0; cases hr0
          | s :: ss =>
            rw [e0] at hr0
            simp only [Except.ok.injEq] at hr0
            subst hr0
            refine ⟨⟨[], [], (r.mult, r.add) :: r.segs⟩, ⟨?_, ?_, ?_⟩, ?_, ?_⟩
            · rw [zm, za]; exact Ole.nil
            · rw [zm]; rfl
            · rw [e0]; exact ⟨hr.ole, hr.even, hr.segs⟩
            · rfl
            · intro p' hp' hf
              have z1 : p'.add.length = 0 := by rw [hp'.ole.l3, ← hp'.ole.l1, z]
              have z2 : p'.mult.length = 0 := by rw [hp'.ole.l2, ← hp'.ole.l1, z]
              rw [if_pos z1] at hf
              obtain ⟨pm, pa, ps⟩ := p'
              have e1 := List.eq_nil_of_length_eq_zero z1
              have e2 := List.eq_nil_of_length_eq_zero z2
              simp only at e1 e2 hf
              subst e1 e2
              match ps with
              | [] => cases hf
              | u :: us =>
                simp only [Except.ok.injEq] at hf
                subst hf
                rfl
        · rw [if_neg z] at hr0
          simp only [Except.ok.injEq] at hr0
          subst hr0
          have z1 : ∀ p, PoolOk p0 p → p.add.length ≠ 0 := fun p hp => by rw [hp.ole.l3, ← hp.ole.l1]; exact z
          refine ⟨r, hr, by rw [if_neg (z1 r hr)], ?_⟩
          intro p' hp' hf
          rw [if_neg (z1 p' hp')] at hf
          simpa using hf
      obtain ⟨rw0, hrw, hrok⟩ := fwd pw hpw
      obtain ⟨k, hk⟩ : ∃ k, Nat.min (need + 1) (r0.add.length / 2) = k := ⟨_, rfl⟩
      have hk2 : 2 * k ≤ r0.add.length := by
        have : Nat.min (need + 1) (r0.add.length / 2) ≤ r0.add.length / 2 := Nat.min_le_right ..
        omega
      have l0 : r0.mult.length = r0.add.length := hrok.ole.l1.symm
      have ev0 : r0.add.length % 2 = 0 := by rw [← l0]; exact hrok.even
      have len : ∀ r, PoolOk r0 r → r.mult.length = r0.add.length ∧ r.add.length = r0.add.length := fun r hr =>
        ⟨by rw [hr.ole.l2, l0], by rw [hr.ole.l3, l0]⟩
      rw [fetch_step hr0 ev0 l0 hk] at h
      have hrest : ∀ r, PoolOk r0 r → PoolOk ⟨(r0.mult.drop k).drop k, (r0.add.drop k).drop k, r0.segs⟩
          ⟨(r.mult.drop k).drop k, (r.add.drop k).drop k, r.segs⟩ := fun r hr =>
        ⟨(hr.ole.drop k).drop k, by simp only [List.length_drop]; rw [l0]; omega, hr.segs⟩
      cases hf : fetch 1 fuel (need + 1 - k) ⟨(r0.mult.drop k).drop k, (r0.add.drop k).drop k, r0.segs⟩ with
      | error e => rw [hf] at h; cases h
      | ok x =>
        obtain ⟨T, q⟩ := x
        rw [hf] at h
        simp only [Except.map, Except.ok.injEq, Prod.mk.injEq] at h
        obtain ⟨rfl, rfl⟩ := h
        have la : (r0.mult.take k).length = k := by rw [List.length_take, l0]; omega
        have lb : (r0.add.take k).length = k := by rw [List.length_take]; omega
        have lc : ((r0.mult.drop k).take k).length = k := by rw [List.length_take, List.length_drop, l0]; omega
        have ld : ((r0.add.drop k).take k).length = k := by rw [List.length_take, List.length_drop]; omega
        have d1 := h1.drop k
        have d2 := h2.drop k
        have t1 := h1.take k
        have t2 := h2.take k
        simp only [List.drop_left' la, List.drop_left' lb, List.drop_left' lc, List.drop_left' ld] at d1 d2
        simp only [List.take_left' la, List.take_left' lb, List.take_left' lc, List.take_left' ld] at t1 t2
        obtain ⟨s, ⟨hs, fs⟩, us⟩ := ih (need + 1 - k) _ ⟨_, hrest _ hrok⟩ T q hf
          ⟨T1.a.drop k, T1.b.drop k, T1.c.drop k, T1.d.drop k⟩ q1 d1 d2 hq
        -- the pool before the round
        obtain ⟨R, hR⟩ : ∃ R : Pool, R = ⟨T1.a.take k ++ (T1.c.take k ++ s.mult), T1.b.take k ++ (T1.d.take k ++ s.add), s.segs⟩ :=
          ⟨_, rfl⟩
        have ka : (T1.a.take k).length = k := by rw [t1.l2, la]
        have kb : (T1.b.take k).length = k := by rw [t1.l3, la]
        have kc : (T1.c.take k).length = k := by rw [t2.l2, lc]
        have kd : (T1.d.take k).length = k := by rw [t2.l3, lc]
        have hRok : PoolOk r0 R := by
          subst hR
          refine ⟨?_, hrok.even, hs.segs⟩
          have := t1.append (t2.append hs.ole)
          simpa only [List.take_append_drop] using this
        have stepR : ∀ r, PoolOk r0 r → ∀ p, refill p = .ok r → fetch 1 (fuel + 1) (need + 1) p =
            (fetch 1 fuel (need + 1 - k) ⟨(r.mult.drop k).drop k, (r.add.drop k).drop k, r.segs⟩).map
              fun x => (⟨r.mult.take k ++ x.1.a, r.add.take k ++ x.1.b, (r.mult.drop k).take k ++ x.1.c,
                (r.add.drop k).take k ++ x.1.d⟩, x.2) := by
          intro r hr p hp
          obtain ⟨l1, l2⟩ := len r hr
          exact fetch_step hp (by rw [l2]; exact ev0) (by rw [l1, l2]) (by rw [l2]; exact hk)
        obtain ⟨p1, hp1, fp1, up1⟩ := bwd R hRok
        refine ⟨p1, ⟨hp1, ?_⟩, ?_⟩
        · rw [stepR R hRok p1 fp1]
          have e1 : (R.mult.drop k).drop k = s.mult := by rw [hR]; simp only [List.drop_left' ka, List.drop_left' kc]
          have e2 : (R.add.drop k).drop k = s.add := by rw [hR]; simp only [List.drop_left' kb, List.drop_left' kd]
          have e3 : R.segs = s.segs := by rw [hR]
          have e4 : R.mult.take k = T1.a.take k := by rw [hR]; simp only [List.take_left' ka]
          have e5 : R.add.take k = T1.b.take k := by rw [hR]; simp only [List.take_left' kb]
          have e6 : (R.mult.drop k).take k = T1.c.take k := by rw [hR]; simp only [List.drop_left' ka, List.take_left' kc]
          have e7 : (R.add.drop k).take k = T1.d.take k := by rw [hR]; simp only [List.drop_left' kb, List.take_left' kd]
          rw [e1, e2, e3, e4, e5, e6, e7]
          show (fetch 1 fuel (need + 1 - k) s).map _ = _
          rw [fs]
          simp only [Except.map, List.take_append_drop]
        · rintro p ⟨hp, fp⟩
          obtain ⟨r, hr, hrp⟩ := fwd p hp
          obtain ⟨n1, n2⟩ := len r hrp
          rw [stepR r hrp p hr] at fp
          cases hx : fetch 1 fuel (need + 1 - k) ⟨(r.mult.drop k).drop k, (r.add.drop k).drop k, r.segs⟩ with
          | error e => rw [hx] at fp; cases fp
          | ok x =>
            rw [hx] at fp
            simp only [Except.map, Except.ok.injEq, Prod.mk.injEq] at fp
            obtain ⟨rfl, rfl⟩ := fp
            have ma : (r.mult.take k).length = k := by rw [List.length_take, n1]; omega
            have mb : (r.add.take k).length = k := by rw [List.length_take, n2]; omega
            have mc : ((r.mult.drop k).take k).length = k := by rw [List.length_take, List.length_drop, n1]; omega
            have md : ((r.add.drop k).take k).length = k := by rw [List.length_take, List.length_drop, n2]; omega
            have := us _ ⟨hrest r hrp, by
              rw [hx]
              simp only [List.drop_left' ma, List.drop_left' mb, List.drop_left' mc, List.drop_left' md]⟩
            apply up1 p hp
            rw [hr, hR, ← this]
            simp only [List.take_left' ma, List.take_left' mb, List.take_left' mc, List.take_left' md, List.take_append_drop]

/-- A success of the fetch loop for one role in terms of the other role's. -/
theorem fetch_role {fuel need : Nat} {p q : Pool} {t : Triples} :
    fetch 0 fuel need p = .ok (t, q) ↔ fetch 1 fuel need p = .ok (swapT t, q) := by
  rw [fetch_swap]
  cases fetch 1 fuel need p with
  | error e => simp [Except.map]
  | ok x =>
    obtain ⟨⟨a, b, c, d⟩, y⟩ := x
    obtain ⟨a', b', c', d'⟩ := t
    simp only [Except.map, swapT, Except.ok.injEq, Prod.mk.injEq, Triples.mk.injEq]
    constructor
    · rintro ⟨⟨rfl, rfl, rfl, rfl⟩, rfl⟩; exact ⟨⟨rfl, rfl, rfl, rfl⟩, rfl⟩
    · rintro ⟨⟨rfl, rfl, rfl, rfl⟩, rfl⟩; exact ⟨⟨rfl, rfl, rfl, rfl⟩, rfl⟩

/-- `fetch_fit1` for the two parties of a run: every set of triples of the other party that fits comes from exactly one pool. -/
theorem fetch_fit {r fuel need : Nat} (hr : r < 2) {p0 p1 : Pool} (hp : PoolOk p0 p1) {t0 t1 : Triples} {q0 q1 : Pool}
    (h : fetch r fuel need p0 = .ok (t0, q0)) (ht : TriplesOk need t0 t1) (hq : PoolOk q0 q1) :
    ∃ p, (PoolOk p0 p ∧ fetch (1 - r) fuel need p = .ok (t1, q1)) ∧
      ∀ p', PoolOk p0 p' ∧ fetch (1 - r) fuel need p' = .ok (t1, q1) → p' = p := by
  match r, hr with
  | 0, _ =>
    rw [fetch_role] at h
    exact fetch_fit1 fuel need p0 ⟨p1, hp⟩ _ _ h t1 q1 ht.h10.symm ht.h01 hq
  | 1, _ =>
    obtain ⟨p, ⟨a, b⟩, c⟩ := fetch_fit1 fuel need p0 ⟨p1, hp⟩ _ _ h (swapT t1) q1 ht.h01 ht.h10.symm hq
    exact ⟨p, ⟨a, fetch_role.2 b⟩, fun p' hp' => c p' ⟨hp'.1, fetch_role.1 hp'.2⟩⟩

/-- `fetch_ok` for either order of the parties. -/
theorem fetch_both {r fuel need : Nat} (hr : r < 2) {p0 p1 : Pool} (hp : PoolOk p0 p1) (ht : 2 * need ≤ p0.total)
    (hf : need + p0.segs.length ≤ fuel) :
    ∃ t0 t1 q0 q1, fetch r fuel need p0 = .ok (t0, q0) ∧ fetch (1 - r) fuel need p1 = .ok (t1, q1) ∧
      TriplesOk need t0 t1 ∧ PoolOk q0 q1 ∧ q0.total + 2 * need = p0.total := by
  match r, hr with
  | 0, _ => exact fetch_ok fuel need p0 p1 hp ht hf
  | 1, _ =>
    obtain ⟨t1, t0, q1, q0, a, b, c, d, e⟩ := fetch_ok fuel need p1 p0 hp.symm (by rw [hp.total]; exact ht)
      (by rw [← hp.segs.length]; exact hf)
    exact ⟨t0, t1, q0, q1, b, a, c.symm, d.symm, by rw [← hp.total, ← e, d.total]⟩

/-! ## One level -/

theorem append_iff {a b c d : List α} (h : a.length = c.length) : a ++ b = c ++ d ↔ a = c ∧ b = d :=
  ⟨fun e => List.append_inj e h, fun e => by rw [e.1, e.2]⟩

theorem mask_iff1 {W : Nat} {x u a : Word} (i : Bool) (hx : x.length = W) (hu : u.length = W) (ha : a.length = W) :
    (if i = false then xorW a x else notW (xorW a x)) = u ↔ a = xorW (if i = false then u else notW u) x := by
  cases i
  · simp only [if_true]
    rw [xorW_eq ha hx]
    exact ⟨fun h => h.2, fun h => ⟨hu, h⟩⟩
  · simp only [Bool.true_eq_false, if_false]
    constructor
    · rintro rfl
      rw [notW_notW, xorW_cancel ha hx]
    · rintro rfl
      rw [xorW_cancel (by simp [hu]) hx, notW_notW]

theorem mask_iff2 {W : Nat} {y v c : Word} (i : Bool) (hy : y.length = W) (hv : v.length = W) (hc : c.length = W) :
    (if i = false then xorW c y else xorW c (notW y)) = v ↔ c = xorW v (if i = false then y else notW y) := by
  cases i
  · simp only [if_true]
    rw [xorW_eq hc hy]
    exact ⟨fun h => h.2, fun h => ⟨hv, h⟩⟩
  · simp only [Bool.true_eq_false, if_false]
    rw [xorW_eq hc (by simp [hy])]
    exact ⟨fun h => h.2, fun h => ⟨hv, h⟩⟩

/-- Exactly one pair of masks makes the message of a gate a given one. -/
theorem multSend_fit {W role : Nat} {gt : GateType} (hk : kind gt = .mult) {x y : Word} (hx : x.length = W) (hy : y.length = W)
    {m : List Block} (hm : m.length = 2 * W) :
    ∃ a c, (a.length = W ∧ c.length = W ∧ multSend role gt x y a c = .ok m) ∧
      ∀ a' c', a'.length = W ∧ c'.length = W ∧ multSend role gt x y a' c' = .ok m → a' = a ∧ c' = c := by
  obtain ⟨u, v, rfl, hu, hv⟩ : ∃ u v : List Block, m = u ++ v ∧ u.length = W ∧ v.length = W :=
    ⟨m.take W, m.drop W, (List.take_append_drop W m).symm, by rw [List.length_take]; omega, by rw [List.length_drop]; omega⟩
  have key : ∀ (iA iB : Bool), invertA gt = .ok iA → invertB gt = .ok iB → ∃ a c, (a.length = W ∧ c.length = W ∧
      multSend role gt x y a c = .ok (u ++ v)) ∧
      ∀ a' c', a'.length = W ∧ c'.length = W ∧ multSend role gt x y a' c' = .ok (u ++ v) → a' = a ∧ c' = c := by
    intro iA iB eA eB
    by_cases hr : role = 0
    · have e : ∀ a c, a.length = W → c.length = W → (multSend role gt x y a c = .ok (u ++ v) ↔
          a = xorW (if iA = false then u else notW u) x ∧ c = xorW v (if iB = false then y else notW y)) := by
        intro a c ha hc
        rw [← mask_iff1 iA hx hu ha, ← mask_iff2 iB hy hv hc]
        have : multSend role gt x y a c = .ok ((if iA = false then xorW a x else notW (xorW a x)) ++
          (if iB = false then xorW c y else xorW c (notW y))) := by
          simp only [multSend, sendP1, sendP2, eA, eB, ok_bind, if_pos hr]
        rw [this, Except.ok.injEq]
        apply append_iff
        cases iA <;> simp [ha, hx, hu]
      have l1 : (xorW (if iA = false then u else notW u) x).length = W := by cases iA <;> simp [hu, hx]
      have l2 : (xorW v (if iB = false then y else notW y)).length = W := by cases iB <;> simp [hv, hy]
      exact ⟨_, _, ⟨l1, l2, (e _ _ l1 l2).2 ⟨rfl, rfl⟩⟩, fun a' c' h => (e a' c' h.1 h.2.1).1 h.2.2⟩
    · have e : ∀ a c, a.length = W → c.length = W → (multSend role gt x y a c = .ok (u ++ v) ↔ a = xorW v x ∧ c = xorW u y) := by
        intro a c ha hc
        have : multSend role gt x y a c = .ok (xorW c y ++ xorW a x) := by
          simp only [multSend, sendP1, sendP2, invertA, invertB, ok_bind, if_neg hr, if_true]
        rw [this, Except.ok.injEq, append_iff (by simp [hc, hy, hu]), xorW_eq ha hx, xorW_eq hc hy]
        exact ⟨fun h => ⟨h.2.2, h.1.2⟩, fun h => ⟨⟨hu, h.2⟩, hv, h.1⟩⟩
      have l1 : (xorW v x).length = W := by simp [hv, hx]
      have l2 : (xorW u y).length = W := by simp [hu, hy]
      exact ⟨_, _, ⟨l1, l2, (e _ _ l1 l2).2 ⟨rfl, rfl⟩⟩, fun a' c' h => (e a' c' h.1 h.2.1).1 h.2.2⟩
  cases gt <;> simp [kind] at hk
  all_goals
    first
    | exact key true true rfl rfl
    | exact key true false rfl rfl
    | exact key false true rfl rfl
    | exact key false false rfl rfl

theorem multSend_length {W role : Nat} {gt : GateType} (hk : kind gt = .mult) {x y a c : Word} (hx : x.length = W)
    (hy : y.length = W) (ha : a.length = W) (hc : c.length = W) {k : List Block} (h : multSend role gt x y a c = .ok k) :
    k.length = 2 * W := by
  by_cases hr : role = 0
  · cases gt <;> simp [kind] at hk
    all_goals
      simp only [multSend, sendP1, sendP2, invertA, invertB, ok_bind, if_pos hr, if_true, Bool.true_eq_false, if_false,
        Except.ok.injEq] at h
      rw [← h]
      simp [hx, hy, ha, hc]
      omega
  · simp only [multSend, sendP1, sendP2, invertA, invertB, ok_bind, if_neg hr, if_true, Except.ok.injEq] at h
    rw [← h]
    simp [hx, hy, ha, hc]
    omega

/-- The first loop of a level: exactly one choice of the masks makes the sent blocks given ones. -/
theorem phase1_fit {W m role : Nat} : ∀ (gs : List Gate) (w : List Word), WordsOk W m w → (∀ g ∈ gs, GateOk m g) →
    ∀ M : List Block, M.length = 2 * W * ands gs →
    ∃ a c, (a.length = W * ands gs ∧ c.length = W * ands gs ∧ ∃ u, phase1 role W gs a c w = .ok (u, M)) ∧
      ∀ a' c', (a'.length = W * ands gs ∧ c'.length = W * ands gs ∧ ∃ u, phase1 role W gs a' c' w = .ok (u, M)) →
        a' = a ∧ c' = c := by
  intro gs
  induction gs with
  | nil =>
    intro w _ _ M hM
    have : M = [] := List.eq_nil_of_length_eq_zero (by simpa [ands] using hM)
    subst this
    refine ⟨[], [], ⟨by simp [ands], by simp [ands], w, rfl⟩, ?_⟩
    rintro a' c' ⟨ha, hc, _⟩
    exact ⟨List.eq_nil_of_length_eq_zero (by simpa [ands] using ha), List.eq_nil_of_length_eq_zero (by simpa [ands] using hc)⟩
  | cons g gs ih =>
    intro w hw hg M hM
    have hgs : ∀ g ∈ gs, GateOk m g := fun h hh => hg h (by simp [hh])
    have hG := hg g (by simp)
    obtain ⟨rx, lx⟩ := hw.get hG.in0
    obtain ⟨ry, ly⟩ := hw.get hG.in1
    obtain ⟨ro, lo⟩ := hw.get hG.out
    have hout : g.out < w.length := by rw [hw.1]; exact hG.out
    have lin : ∀ (z : Word), kind g.type ≠ .mult → z.length = W →
        (∀ a c, phase1 role W (g :: gs) a c w = phase1 role W gs a c (w.set g.out z)) →
        ∃ a c, (a.length = W * ands (g :: gs) ∧ c.length = W * ands (g :: gs) ∧ ∃ u, phase1 role W (g :: gs) a c w = .ok (u, M)) ∧
        ∀ a' c', (a'.length = W * ands (g :: gs) ∧ c'.length = W * ands (g :: gs) ∧ ∃ u, phase1 role W (g :: gs) a' c' w = .ok (u, M)) →
          a' = a ∧ c' = c := by
      intro z hk hz e
      have ha : ands (g :: gs) = ands gs := by rw [ands_cons, if_neg hk]; rfl
      rw [ha] at hM ⊢
      obtain ⟨a, c, ⟨l1, l2, u, h1⟩, h2⟩ := ih _ (hw.set g.out hz) hgs M hM
      exact ⟨a, c, ⟨l1, l2, u, by rw [e]; exact h1⟩, fun a' c' h => h2 a' c' ⟨h.1, h.2.1, by obtain ⟨u, hu⟩ := h.2.2; exact ⟨u, by rw [← e]; exact hu⟩⟩⟩
    cases hk : kind g.type with
    | copy =>
      refine lin (w.getD g.in0 []) (by rw [hk]; decide) lx fun a c => ?_
      simp only [phase1, rx, ry, ok_bind, hk, wr_ok hout]
    | xor =>
      refine lin (xorW (w.getD g.in0 []) (w.getD g.in1 [])) (by rw [hk]; decide) (by rw [xorW_length, lx, ly, Nat.min_self]) fun a c => ?_
      simp only [phase1, rx, ry, ok_bind, hk, wr_ok hout]
    | nxor =>
      refine lin (if role ≠ 0 then notW (xorW (w.getD g.in0 []) (w.getD g.in1 [])) else xorW (w.getD g.in0 []) (w.getD g.in1 []))
        (by rw [hk]; decide) (by split <;> simp only [notW_length, xorW_length, lx, ly, Nat.min_self]) fun a c => ?_
      simp only [phase1, rx, ry, ok_bind, hk, wr_ok hout]
    | bad => exact absurd hk hG.type
    | mult =>
      have ha : ands (g :: gs) = ands gs + 1 := by rw [ands_cons, if_pos hk]
      have hlen : 2 * W * ands (g :: gs) = 2 * W + 2 * W * ands gs := by rw [ha, Nat.mul_succ, Nat.add_comm]
      have hlen1 : W * ands (g :: gs) = W + W * ands gs := by rw [ha, Nat.mul_succ, Nat.add_comm]
      rw [hlen] at hM
      rw [hlen1]
      have e : ∀ a c, W ≤ a.length → W ≤ c.length → phase1 role W (g :: gs) a c w = (do
          let k ← multSend role g.type (w.getD g.in0 []) (w.getD g.in1 []) (a.take W) (c.take W)
          let (w, ms) ← phase1 role W gs (a.drop W) (c.drop W) w
          .ok (w, k ++ ms)) := by
        intro a c h1 h2
        simp only [phase1, rx, ry, ok_bind, hk, ro, cut_ok h1, cut_ok h2]
      obtain ⟨a0, c0, ⟨la, lc, hs⟩, us⟩ := multSend_fit (role := role) hk lx ly (m := M.take (2 * W)) (by rw [List.length_take]; omega)
      obtain ⟨a, c, ⟨l1, l2, u, h1⟩, h2⟩ := ih w hw hgs (M.drop (2 * W)) (by rw [List.length_drop]; omega)
      refine ⟨a0 ++ a, c0 ++ c, ⟨by simp [la, l1], by simp [lc, l2], u, ?_⟩, ?_⟩
      · rw [e _ _ (by simp [la]) (by simp [lc])]
        simp only [List.take_left' la, List.take_left' lc, List.drop_left' la, List.drop_left' lc, hs, h1, ok_bind,
          List.take_append_drop]
      · rintro a' c' ⟨m1, m2, u', hu⟩
        rw [e _ _ (by omega) (by omega), bind_ok_iff] at hu
        obtain ⟨k, hk1, hk2⟩ := hu
        rw [bind_ok_iff] at hk2
        obtain ⟨⟨w2, ms⟩, hk3, hk4⟩ := hk2
        simp only [Except.ok.injEq, Prod.mk.injEq] at hk4
        have lk : k.length = 2 * W := by
          exact multSend_length hk lx ly (by rw [List.length_take]; omega) (by rw [List.length_take]; omega) hk1
        obtain ⟨rfl, rfl⟩ : M.take (2 * W) = k ∧ M.drop (2 * W) = ms := by
          rw [← hk4.2]
          exact ⟨List.take_left' lk, List.drop_left' lk⟩
        obtain ⟨b1, b2⟩ := us _ _ ⟨by rw [List.length_take]; omega, by rw [List.length_take]; omega, hk1⟩
        obtain ⟨b3, b4⟩ := h2 _ _ ⟨by rw [List.length_drop]; omega, by rw [List.length_drop]; omega, w2, hk3⟩
        rw [← b1, ← b2, ← b3, ← b4]
        simp

end Gmw
end SecJoin
