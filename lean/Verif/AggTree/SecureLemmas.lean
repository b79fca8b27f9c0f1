import Verif.AggTree.Secure
import Verif.AggTree.PlainProps
/-!
# Lemmas on the shared aggregation tree
-/
namespace SecJoin
namespace Agg

theorem unzipAlt_fst (l : List α) (w : Nat) : (unzipAlt l).1[w]? = l[2 * w]? := by
  fun_induction unzipAlt l generalizing w with
  | case1 => simp
  | case2 a => cases w with
    | zero => rfl
    | succ w => simp [show 2 * (w + 1) = 2 * w + 1 + 1 by omega]
  | case3 a b l ih => cases w with
    | zero => rfl
    | succ w =>
      rw [show 2 * (w + 1) = 2 * w + 1 + 1 by omega]
      simp only [List.getElem?_cons_succ]
      exact ih w

theorem unzipAlt_snd (l : List α) (w : Nat) : (unzipAlt l).2[w]? = l[2 * w + 1]? := by
  fun_induction unzipAlt l generalizing w with
  | case1 => simp
  | case2 a => simp
  | case3 a b l ih => cases w with
    | zero => rfl
    | succ w =>
      rw [show 2 * (w + 1) + 1 = 2 * w + 1 + 1 + 1 by omega]
      simp only [List.getElem?_cons_succ]
      exact ih w

theorem unzipAlt_length (l : List α) :
    (unzipAlt l).1.length = (l.length + 1) / 2 ∧ (unzipAlt l).2.length = l.length / 2 := by
  fun_induction unzipAlt l with
  | case1 => simp
  | case2 a => simp
  | case3 a b l ih => simp only [List.length_cons]; omega

theorem zipAlt_length (l r : List α) : (zipAlt l r).length = 2 * min l.length r.length := by
  fun_induction zipAlt l r with
  | case1 a l b r ih => simp only [List.length_cons, ih]; omega
  | case2 l r h =>
    cases l with
    | nil => simp
    | cons a l => cases r with
      | nil => simp
      | cons b r => exact absurd rfl (h a l b r rfl)

theorem zipAlt_get (l r : List α) (h : l.length = r.length) (w : Nat) :
    (zipAlt l r)[w]? = if w % 2 = 0 then l[w / 2]? else r[w / 2]? := by
  fun_induction zipAlt l r generalizing w with
  | case1 a l b r ih =>
    match w with
    | 0 => rfl
    | 1 => rfl
    | w + 2 =>
      simp only [List.getElem?_cons_succ]
      rw [ih (by simpa using h), show (w + 2) % 2 = w % 2 by omega, show (w + 2) / 2 = w / 2 + 1 by omega]
      simp only [List.getElem?_cons_succ]
  | case2 l r hn =>
    cases l with
    | nil =>
      simp at h
      rw [List.length_eq_zero_iff.mp h.symm]
      simp
    | cons a l => cases r with
      | nil => simp at h
      | cons b r => exact absurd rfl (hn a l b r rfl)

theorem overwrite_ok {src dst : List α} (h : src.length ≤ dst.length) : ∃ o, overwrite src dst = .ok o ∧
    o.length = dst.length ∧ ∀ w, o[w]? = if w < src.length then src[w]? else dst[w]? := by
  refine ⟨_, by unfold overwrite; rw [if_pos h], by simp; omega, fun w => ?_⟩
  rw [List.getElem?_append]
  by_cases hw : w < src.length
  · rw [if_pos hw, if_pos hw]
  · rw [if_neg hw, if_neg hw, List.getElem?_drop]
    congr 1
    omega

theorem copyAt_ok {src dst : List α} {a b n : Nat} (h1 : a + n ≤ src.length) (h2 : b + n ≤ dst.length) :
    ∃ o, copyAt src dst a b n = .ok o ∧ o.length = dst.length ∧
      ∀ w, o[w]? = if b ≤ w ∧ w < b + n then src[w - b + a]? else dst[w]? := by
  refine ⟨_, by unfold copyAt; rw [if_pos ⟨h1, h2⟩], by simp; omega, fun w => ?_⟩
  rw [List.append_assoc, List.getElem?_append, List.getElem?_append, List.length_take, List.length_take, List.length_drop]
  have e1 : min b dst.length = b := by omega
  have e2 : min n (src.length - a) = n := by omega
  rw [e1, e2]
  by_cases hw : w < b
  · rw [if_pos hw, if_neg (by omega), List.getElem?_take, if_pos hw]
  · rw [if_neg hw]
    by_cases hw2 : w - b < n
    · rw [if_pos hw2, if_pos (by omega), List.getElem?_take, if_pos hw2, List.getElem?_drop]
      congr 1
      omega
    · rw [if_neg hw2, if_neg (by omega), List.getElem?_drop]
      congr 1
      omega

/-- Split level `j` of the upstream pass is correct. -/
def SUpOk (R k : Nat) (G : Nat → Nat → V × Bool) (j : Nat) (s : List (V × Bool) × List (V × Bool)) : Prop :=
  s.1.length = sz R k j / 2 ∧ s.2.length = sz R k j / 2 ∧ ∀ w < sz R k j / 2,
    s.1[w]? = some (G (st R j (2 * w)) (st R j (2 * w + 1))) ∧
    s.2[w]? = some (G (st R j (2 * w + 1)) (st R j (2 * w + 1 + 1)))

/-- Split level `j` of the downstream pass is correct. -/
def SDownOk (R k : Nat) (D : Nat → Nat → V → Prop) (j : Nat) (s : List V × List V) : Prop :=
  s.1.length = sz R k j / 2 ∧ s.2.length = sz R k j / 2 ∧ ∀ w < sz R k j / 2,
    (∃ v, s.1[w]? = some v ∧ D (st R j (2 * w)) (st R j (2 * w + 1)) v) ∧
    (∃ v, s.2[w]? = some v ∧ D (st R j (2 * w + 1)) (st R j (2 * w + 1 + 1)) v)

theorem half_even {R k j : Nat} (hRe : 0 < k → R % 2 = 0) (hj : j < k) : sz R k j / 2 % 2 = 0 := by
  cases j with
  | zero => simp only [sz]; have := hRe (by omega); omega
  | succ j =>
    simp only [sz]
    have : k - j = k - j - 2 + 1 + 1 := by omega
    rw [this, Nat.pow_succ, Nat.pow_succ]
    omega

theorem sUpFrom_ok {R k : Nat} {d : Dir V} {G : Nat → Nat → V × Bool} {D : Nat → Nat → V → Prop} (hR : R ≤ 2 ^ k)
    (hRe : 0 < k → R % 2 = 0) (hw : Works (2 ^ k + R) d G D) :
    ∀ (ps : List (List (V × Bool) × List (V × Bool))) (j : Nat) (c : List (V × Bool) × List (V × Bool)),
    SUpOk R k G j c → j + ps.length = k →
    (∀ t p, ps[t]? = some p → p.1.length = sz R k (j + t + 1) / 2 ∧ p.2.length = sz R k (j + t + 1) / 2 ∧
      ∀ w, sz R k (j + t) / 2 / 2 ≤ w → w < sz R k (j + t + 1) / 2 →
        p.1[w]? = some (G (st R (j + t + 1) (2 * w)) (st R (j + t + 1) (2 * w + 1))) ∧
        p.2[w]? = some (G (st R (j + t + 1) (2 * w + 1)) (st R (j + t + 1) (2 * w + 1 + 1)))) →
    ∃ ls root, sUpFrom d c ps = .ok (ls, root) ∧ ls.length = ps.length + 1 ∧ root.length = sz R k k / 2 ∧
      ∀ t l, ls[t]? = some l → SUpOk R k G (j + t) l := by
  intro ps
  induction ps with
  | nil =>
    intro j c hc hj _
    simp only [List.length_nil, Nat.add_zero] at hj
    subst hj
    refine ⟨[c], List.zipWith d.up c.1 c.2, ?_, rfl, ?_, fun t l h => ?_⟩
    · rw [sUpFrom, decide_eq_false (by rw [hc.1, hc.2.1]; simp), throwIf_false, ok_bind]
    · rw [List.length_zipWith, hc.1, hc.2.1, Nat.min_self]
    · cases t with
      | zero => simp at h; subst h; exact hc
      | succ t => simp at h
  | cons p ps ih =>
    intro j c hc hl hp
    simp only [List.length_cons] at hl
    have hj : j < k := by omega
    obtain ⟨p1, p2, pg⟩ := hp 0 p (by simp)
    simp only [Nat.add_zero] at p1 p2 pg
    have hz : ∀ i < sz R k j / 2, (List.zipWith d.up c.1 c.2)[i]? = some (G (st R (j + 1) i) (st R (j + 1) (i + 1))) := by
      intro i hi
      rw [List.getElem?_zipWith, (hc.2.2 i hi).1, (hc.2.2 i hi).2]
      simp only
      rw [node_ok hR hw (by omega) hi]
    have hzl : (List.zipWith d.up c.1 c.2).length = sz R k j / 2 := by
      rw [List.length_zipWith, hc.1, hc.2.1, Nat.min_self]
    have hev := half_even hRe hj
    obtain ⟨ul, ul'⟩ := unzipAlt_length (List.zipWith d.up c.1 c.2)
    rw [hzl] at ul ul'
    have hsz := (sz_half (j := j) hR (by omega)).1
    obtain ⟨o1, e1, l1, g1⟩ := overwrite_ok (src := (unzipAlt (List.zipWith d.up c.1 c.2)).1) (dst := p.1)
      (by rw [ul, p1]; omega)
    obtain ⟨o2, e2, l2, g2⟩ := overwrite_ok (src := (unzipAlt (List.zipWith d.up c.1 c.2)).2) (dst := p.2)
      (by rw [ul', p2]; omega)
    have hq : SUpOk R k G (j + 1) (o1, o2) := by
      refine ⟨by rw [l1, p1], by rw [l2, p2], fun w hw' => ⟨?_, ?_⟩⟩
      · simp only
        rw [g1, ul]
        by_cases hlt : w < (sz R k j / 2 + 1) / 2
        · rw [if_pos hlt, unzipAlt_fst, hz _ (by omega)]
        · rw [if_neg hlt]
          exact (pg w (by omega) hw').1
      · simp only
        rw [g2, ul']
        by_cases hlt : w < sz R k j / 2 / 2
        · rw [if_pos hlt, unzipAlt_snd, hz _ (by omega)]
        · rw [if_neg hlt]
          exact (pg w (by omega) hw').2
    obtain ⟨ls, root, e, ll, lr, lg⟩ := ih (j + 1) (o1, o2) hq (by omega) (fun t p' h => by
      have := hp (t + 1) p' (by simpa using h)
      rw [show j + (t + 1) = j + 1 + t by omega] at this
      exact this)
    refine ⟨c :: ls, root, ?_, by simp [ll], lr, fun t l h => ?_⟩
    · rw [sUpFrom, decide_eq_false (by rw [hc.1, hc.2.1]; simp), throwIf_false, ok_bind]
      simp only [e1, e2, ok_bind, e]
    · cases t with
      | zero => simp at h; subst h; exact hc
      | succ t =>
        have := lg t l (by simpa using h)
        rw [show j + (t + 1) = j + 1 + t by omega]
        exact this

theorem sDownLevel_ok {R k j : Nat} {d : Dir V} {G : Nat → Nat → V × Bool} {D : Nat → Nat → V → Prop} (hR : R ≤ 2 ^ k)
    (hw : Works (2 ^ k + R) d G D) (hj : j ≤ k) {c : List (V × Bool) × List (V × Bool)} (hc : SUpOk R k G j c)
    {parent : List V} (hl : parent.length = sz R k j / 2)
    (hp : ∀ w < sz R k j / 2, ∃ v, parent[w]? = some v ∧ D (st R (j + 1) w) (st R (j + 1) (w + 1)) v) :
    ∃ t, sDownLevel d c parent = .ok t ∧ SDownOk R k D j t := by
  refine ⟨_, by
    unfold sDownLevel
    rw [decide_eq_false (by rw [hc.1, hc.2.1]; simp), throwIf_false, ok_bind, decide_eq_false (by rw [hc.1, hl]; simp),
      throwIf_false, ok_bind], ?_, ?_, fun w hw' => ?_⟩
  · simp [hc.1, hc.2.1, hl]
  · simp [hc.1, hc.2.1, hl]
  · obtain ⟨v, hv, hD⟩ := hp w hw'
    obtain ⟨c1, c2⟩ := st_child R k hj hw'
    rw [c1, c2] at hD
    have hev := sz_even (R := R) hj
    have := hw.down _ _ _ _ (st_lt R j (2 * w)) (st_lt R j (2 * w + 1)) (st_le hR (by omega) (by omega)) hD
    have hg : (List.zipWith (fun v ab => d.down v ab.1 ab.2) parent (List.zip c.1 c.2))[w]? =
        some (d.down v (G (st R j (2 * w)) (st R j (2 * w + 1))) (G (st R j (2 * w + 1)) (st R j (2 * w + 1 + 1)))) := by
      rw [List.getElem?_zipWith, hv, List.zip, List.getElem?_zipWith, (hc.2.2 w hw').1, (hc.2.2 w hw').2]
    refine ⟨⟨_, by rw [List.getElem?_map, hg]; rfl, this.1⟩, ⟨_, by rw [List.getElem?_map, hg]; rfl, this.2⟩⟩

theorem sDownFrom_ok {R k : Nat} {d : Dir V} {G : Nat → Nat → V × Bool} {D : Nat → Nat → V → Prop} (hR : R ≤ 2 ^ k)
    (hRe : 0 < k → R % 2 = 0) (hw : Works (2 ^ k + R) d G D) {root : List V} (hroot : root.length = sz R k k / 2)
    (hone : sz R k k / 2 = 1) : ∀ (ls : List (List (V × Bool) × List (V × Bool))) (j : Nat), ls ≠ [] → j + ls.length = k + 1 →
    (∀ t l, ls[t]? = some l → SUpOk R k G (j + t) l) →
    ∃ ds, sDownFrom d root ls = .ok ds ∧ ds.length = ls.length ∧ ∀ t l, ds[t]? = some l → SDownOk R k D (j + t) l := by
  intro ls
  induction ls with
  | nil => intro j h; exact absurd rfl h
  | cons c ps ih =>
    intro j _ hl hu
    have hc : SUpOk R k G j c := hu 0 c (by simp)
    cases ps with
    | nil =>
      simp only [List.length_cons, List.length_nil] at hl
      have hj : j = k := by omega
      subst hj
      obtain ⟨t, e, ht⟩ := sDownLevel_ok hR hw (Nat.le_refl _) hc hroot (fun w hw' => by
        have hw0 : w = 0 := by omega
        subst hw0
        refine ⟨root[0], by rw [List.getElem?_eq_getElem (by omega)], ?_⟩
        have e0 : st R (j + 1) 0 = 0 := by simp [st]
        have e1 : st R (j + 1) (0 + 1) = 2 ^ j + R := by
          have := Nat.min_eq_right hR
          simp [st, this]
        rw [e0, e1]
        exact hw.root _)
      refine ⟨[t], by rw [sDownFrom, e, ok_bind], rfl, fun i l h => ?_⟩
      cases i with
      | zero => simp at h; subst h; exact ht
      | succ i => simp at h
    | cons p ps =>
      simp only [List.length_cons] at hl
      obtain ⟨ds, e, dl, dg⟩ := ih (j + 1) (by simp) (by simp only [List.length_cons]; omega) (fun t l h => by
        have := hu (t + 1) l (by simpa using h)
        rw [show j + (t + 1) = j + 1 + t by omega] at this
        exact this)
      have dpos : 0 < ds.length := by rw [dl]; simp
      obtain ⟨p1, p2, pg⟩ := dg 0 ds[0] (by simp [dpos])
      rw [Nat.add_zero] at p1 p2 pg
      have hj : j < k := by omega
      have hhalf := sz_half (j := j) hR (by omega)
      have hev := half_even hRe hj
      have hl1 : (ds[0].1.take (c.1.length / 2)).length = sz R k j / 2 / 2 := by
        rw [List.length_take, hc.1, p1]; omega
      have hl2 : (ds[0].2.take (c.1.length / 2)).length = sz R k j / 2 / 2 := by
        rw [List.length_take, hc.1, p2]; omega
      obtain ⟨t, et, ht⟩ := sDownLevel_ok (parent := zipAlt (ds[0].1.take (c.1.length / 2)) (ds[0].2.take (c.1.length / 2)))
        hR hw (by omega) hc (by rw [zipAlt_length, hl1, hl2]; omega) (fun w hw' => by
          rw [zipAlt_get _ _ (by rw [hl1, hl2]), hc.1]
          obtain ⟨⟨v1, a1, b1⟩, v2, a2, b2⟩ := pg (w / 2) (by omega)
          by_cases hpar : w % 2 = 0
          · have ew : w = 2 * (w / 2) := by omega
            rw [if_pos hpar, List.getElem?_take, if_pos (by omega)]
            refine ⟨v1, a1, ?_⟩
            rw [← ew] at b1
            exact b1
          · have ew : w = 2 * (w / 2) + 1 := by omega
            rw [if_neg hpar, List.getElem?_take, if_pos (by omega)]
            refine ⟨v2, a2, ?_⟩
            rw [← ew] at b2
            exact b2)
      refine ⟨t :: ds, ?_, by simp [dl], fun i l h => ?_⟩
      · rw [sDownFrom, e, ok_bind, rd_ok dpos, ok_bind]
        simp only [et, ok_bind]
      · cases i with
        | zero => simp at h; subst h; exact ht
        | succ i =>
          have := dg i l (by simpa using h)
          rw [show j + (i + 1) = j + 1 + i by omega]
          exact this

theorem top_one {R k : Nat} (hR1 : 1 ≤ R) (hR : R ≤ 2 ^ k) : sz R k k / 2 = 1 := by
  cases k with
  | zero => simp only [sz]; omega
  | succ k => simp only [sz]; rw [show k + 1 - k = 1 by omega]

/-- The values of the leaves are correct. -/
def LeavesOk (N : Nat) (D : Nat → Nat → V → Prop) (t : List V × List V) : Prop :=
  t.1.length = N / 2 ∧ t.2.length = N / 2 ∧ ∀ w < N / 2,
    (∃ v, t.1[w]? = some v ∧ D (2 * w) (2 * w + 1) v) ∧ (∃ v, t.2[w]? = some v ∧ D (2 * w + 1) (2 * w + 1 + 1) v)

theorem newVals_ok {n k R r : Nat} {c : Bool} {zero : V} {D : Nat → Nat → V → Prop} (hR1 : 1 ≤ R)
    (hc : c = true ∧ r = 0 ∧ R = 2 ^ k ∨ c = false ∧ r = R ∧ R < 2 ^ k ∧ R % 16 = 0 ∧ 16 ≤ 2 ^ k)
    {ds : List (List V × List V)} (hl : ds.length = k + 1) (hd : ∀ t l, ds[t]? = some l → SDownOk R k D t l) :
    ∃ t, newVals ⟨n, 2 ^ k + R, r, c, 2 * R :: 2 ^ k :: halves k (2 ^ k)⟩ zero ds = .ok t ∧
      LeavesOk (2 ^ k + R) D t := by
  obtain ⟨a1, a2, ag⟩ := hd 0 ds[0] (by rw [List.getElem?_eq_getElem (by omega)])
  simp only [sz, st] at a1 a2 ag
  rcases hc with ⟨rfl, rfl, h⟩ | ⟨rfl, rfl, h1, h2, h3⟩
  · refine ⟨ds[0], ?_, by omega, by omega, fun w hw => ag w (by omega)⟩
    unfold newVals
    rw [rd_ok (by omega), ok_bind]
    rfl
  · have hk : 4 ≤ k := by
      by_contra hcon
      have : 2 ^ k ≤ 2 ^ 3 := Nat.pow_le_pow_right (by omega) (by omega)
      omega
    have h16 : 2 ^ k % 16 = 0 := by
      obtain ⟨j, rfl⟩ : ∃ j, k = j + 4 := ⟨k - 4, by omega⟩
      rw [Nat.pow_add]; omega
    obtain ⟨b1, b2, bg⟩ := hd 1 ds[1] (by rw [List.getElem?_eq_getElem (by omega)])
    simp only [sz, Nat.sub_zero] at b1 b2 bg
    have e3 : r / 16 * 8 = r / 2 := by omega
    have e4 : 2 * r / 16 * 8 = r := by omega
    have e5 : (2 ^ k - r) / 16 * 8 = (2 ^ k - r) / 2 := by omega
    obtain ⟨l1, x1, y1, z1⟩ := copyAt_ok (src := ds[1].1) (dst := List.replicate ((2 ^ k + r) / 2) zero) (a := r / 2) (b := r)
      (n := (2 ^ k - r) / 2) (by omega) (by simp; omega)
    obtain ⟨r1, x2, y2, z2⟩ := copyAt_ok (src := ds[1].2) (dst := List.replicate ((2 ^ k + r) / 2) zero) (a := r / 2) (b := r)
      (n := (2 ^ k - r) / 2) (by omega) (by simp; omega)
    rw [List.length_replicate] at y1 y2
    obtain ⟨l2, x3, y3, z3⟩ := copyAt_ok (src := ds[0].1) (dst := l1) (a := 0) (b := 0) (n := r) (by omega) (by omega)
    obtain ⟨r2, x4, y4, z4⟩ := copyAt_ok (src := ds[0].2) (dst := r1) (a := 0) (b := 0) (n := r) (by omega) (by omega)
    refine ⟨(l2, r2), ?_, by show l2.length = _; omega, by show r2.length = _; omega, fun w hw => ?_⟩
    · unfold newVals
      have q0 : rd ds 0 = .ok ds[0] := rd_ok (by omega)
      have q1 : rd ds 1 = .ok ds[1] := rd_ok (by omega)
      simp only [q0, ok_bind, Bool.false_eq_true, if_false, q1]
      simp only [rd, List.getElem?_cons_zero, List.getElem?_cons_succ, ok_bind, e3, e4, e5, x1, x2, x3, x4]
    · simp only
      rw [z3, z4]
      by_cases hwr : w < r
      · rw [if_pos (by omega), if_pos (by omega)]
        exact ag w (by omega)
      · rw [if_neg (by omega), if_neg (by omega), z1, z2, if_pos (by omega), if_pos (by omega)]
        have := bg (w - r + r / 2) (by omega)
        simp only [st, Nat.pow_zero, Nat.mul_one] at this
        have f1 : 2 * (w - r + r / 2) + min (2 * (w - r + r / 2)) r = 2 * w := by omega
        have f2 : 2 * (w - r + r / 2) + 1 + min (2 * (w - r + r / 2) + 1) r = 2 * w + 1 := by omega
        have f3 : 2 * (w - r + r / 2) + 1 + 1 + min (2 * (w - r + r / 2) + 1 + 1) r = 2 * w + 1 + 1 := by omega
        rw [f1, f2, f3] at this
        exact this

theorem sHalf_ok {n k R r : Nat} {c : Bool} {d : Dir V} {zero : V} {leaves : List (V × Bool)}
    {G : Nat → Nat → V × Bool} {D : Nat → Nat → V → Prop} (hR1 : 1 ≤ R) (hR : R ≤ 2 ^ k)
    (hc : c = true ∧ r = 0 ∧ R = 2 ^ k ∨ c = false ∧ r = R ∧ R < 2 ^ k ∧ R % 16 = 0 ∧ 16 ≤ 2 ^ k)
    (hw : Works (2 ^ k + R) d G D) (hlen : leaves.length = 2 ^ k + R)
    (hl : ∀ i < 2 ^ k + R, leaves[i]? = some (G i (i + 1))) :
    ∃ t, sHalf ⟨n, 2 ^ k + R, r, c, 2 * R :: 2 ^ k :: halves k (2 ^ k)⟩ d zero leaves = .ok t ∧
      LeavesOk (2 ^ k + R) D t := by
  have hRe : 0 < k → R % 2 = 0 := by
    intro hk
    rcases hc with ⟨_, _, h⟩ | ⟨_, _, _, h, _⟩
    · obtain ⟨j, rfl⟩ : ∃ j, k = j + 1 := ⟨k - 1, by omega⟩
      rw [h, Nat.pow_succ]; omega
    · omega
  obtain ⟨ul, ul'⟩ := unzipAlt_length leaves
  have hdl : ∀ t p, ((2 ^ k :: halves k (2 ^ k)).map fun s =>
      (List.replicate (s / 2) (zero, false), List.replicate (s / 2) (zero, false))).dropLast[t]? = some p →
      t < k ∧ p = (List.replicate (sz R k (t + 1) / 2) (zero, false), List.replicate (sz R k (t + 1) / 2) (zero, false)) := by
    intro t p h
    rw [List.getElem?_dropLast] at h
    simp only [List.length_map, List.length_cons, halves_length, Nat.add_sub_cancel] at h
    split at h
    · rename_i ht
      rw [List.getElem?_map, halves_get k t (by omega)] at h
      simp only [Option.map_some, Option.some.injEq] at h
      exact ⟨ht, h.symm⟩
    · simp at h
  have hup : ∃ l0 rest, (if c = true then .ok (unzipAlt leaves, (((2 * R :: 2 ^ k :: halves k (2 ^ k)).map fun s =>
      (List.replicate (s / 2) (zero, false), List.replicate (s / 2) (zero, false))).drop 1).dropLast) else do
      let l1 ← copySplit (zero, false) (unzipAlt leaves) (r * 2) r (2 ^ k)
      .ok (((unzipAlt leaves).1.take (2 * R / 2), (unzipAlt leaves).2.take (2 * R / 2)),
        l1 :: (((2 * R :: 2 ^ k :: halves k (2 ^ k)).map fun s =>
          (List.replicate (s / 2) (zero, false), List.replicate (s / 2) (zero, false))).drop 2).dropLast) : Res _) = .ok (l0, rest) ∧
      SUpOk R k G 0 l0 ∧ rest.length = k ∧
      (∀ t p, rest[t]? = some p → p.1.length = sz R k (0 + t + 1) / 2 ∧ p.2.length = sz R k (0 + t + 1) / 2 ∧
        ∀ w, sz R k (0 + t) / 2 / 2 ≤ w → w < sz R k (0 + t + 1) / 2 →
        p.1[w]? = some (G (st R (0 + t + 1) (2 * w)) (st R (0 + t + 1) (2 * w + 1))) ∧
        p.2[w]? = some (G (st R (0 + t + 1) (2 * w + 1)) (st R (0 + t + 1) (2 * w + 1 + 1)))) := by
    rcases hc with ⟨rfl, rfl, h⟩ | ⟨rfl, rfl, h1, h2, h3⟩
    · refine ⟨_, _, by rw [if_pos rfl], ⟨?_, ?_, ?_⟩, ?_, ?_⟩
      · simp only [sz]; omega
      · simp only [sz]; omega
      · intro w hw'
        simp only [sz, st] at hw' ⊢
        rw [unzipAlt_fst, unzipAlt_snd, hl _ (by omega), hl _ (by omega)]
        exact ⟨rfl, rfl⟩
      · simp [halves_length]
      · intro t p hp
        obtain ⟨ht, rfl⟩ := hdl t p (by simpa using hp)
        rw [Nat.zero_add]
        refine ⟨by simp, by simp, fun w h1 h2 => ?_⟩
        have h4 : sz R k t / 2 = sz R k (t + 1) := by
          cases t with
          | zero => simp only [sz, Nat.sub_zero]; omega
          | succ t => exact (sz_half hR (by omega)).2 (by omega)
        omega
    · have hk : 4 ≤ k := by
        by_contra hcon
        have : 2 ^ k ≤ 2 ^ 3 := Nat.pow_le_pow_right (by omega) (by omega)
        omega
      have h16 : 2 ^ k % 16 = 0 := by
        obtain ⟨j, rfl⟩ : ∃ j, k = j + 4 := ⟨k - 4, by omega⟩
        rw [Nat.pow_add]; omega
      have e1 : r * 2 / 16 * 8 = r := by omega
      have e2 : r / 16 * 8 = r / 2 := by omega
      have e3 : (unzipAlt leaves).1.length + (unzipAlt leaves).2.length - r * 2 = 2 ^ k - r := by omega
      have e4 : (2 ^ k - r) / 16 * 8 = (2 ^ k - r) / 2 := by omega
      have e5 : divCeil (2 ^ k) 2 = 2 ^ k / 2 := by unfold divCeil; omega
      have e6 : 2 ^ k - 2 ^ k / 2 = 2 ^ k / 2 := by omega
      obtain ⟨l1, x1, y1, z1⟩ := copyAt_ok (src := (unzipAlt leaves).1) (dst := List.replicate (2 ^ k / 2) (zero, false))
        (a := r) (b := r / 2) (n := (2 ^ k - r) / 2) (by omega) (by simp; omega)
      obtain ⟨r1, x2, y2, z2⟩ := copyAt_ok (src := (unzipAlt leaves).2) (dst := List.replicate (2 ^ k / 2) (zero, false))
        (a := r) (b := r / 2) (n := (2 ^ k - r) / 2) (by omega) (by simp; omega)
      have hcp : copySplit (zero, false) (unzipAlt leaves) (r * 2) r (2 ^ k) = .ok (l1, r1) := by
        unfold copySplit
        simp only [e3]
        rw [decide_eq_false (by omega), throwIf_false, ok_bind, decide_eq_false (by omega), throwIf_false, ok_bind,
          decide_eq_false (by omega), throwIf_false, ok_bind, decide_eq_false (by omega), throwIf_false, ok_bind]
        simp only [e1, e2, e4, e5, e6, x1, x2, ok_bind]
      rw [List.length_replicate] at y1 y2
      refine ⟨_, _, by rw [if_neg (by decide), hcp, ok_bind], ⟨?_, ?_, ?_⟩, ?_, ?_⟩
      · simp only [sz, List.length_take]; omega
      · simp only [sz, List.length_take]; omega
      · intro w hw'
        simp only [sz, st] at hw' ⊢
        rw [List.getElem?_take, if_pos hw', List.getElem?_take, if_pos hw', unzipAlt_fst, unzipAlt_snd, hl _ (by omega),
          hl _ (by omega)]
        exact ⟨rfl, rfl⟩
      · simp [halves_length]; omega
      · intro t p hp
        cases t with
        | zero =>
          simp at hp
          subst hp
          simp only [sz, st, Nat.zero_add, Nat.sub_zero, Nat.pow_zero, Nat.mul_one]
          refine ⟨y1, y2, fun w h1 h2 => ?_⟩
          rw [z1, z2, if_pos (by omega), if_pos (by omega), unzipAlt_fst, unzipAlt_snd, hl _ (by omega), hl _ (by omega)]
          have f1 : 2 * w + min (2 * w) r = 2 * (w - r / 2 + r) := by omega
          have f2 : 2 * w + 1 + min (2 * w + 1) r = 2 * (w - r / 2 + r) + 1 := by omega
          have f3 : 2 * w + 1 + 1 + min (2 * w + 1 + 1) r = 2 * (w - r / 2 + r) + 1 + 1 := by omega
          rw [f1, f2, f3]
          exact ⟨rfl, rfl⟩
        | succ t =>
          have hp' : ((2 ^ k :: halves k (2 ^ k)).map fun s =>
              (List.replicate (s / 2) (zero, false), List.replicate (s / 2) (zero, false))).dropLast[t + 1]? = some p := by
            rw [List.getElem?_cons_succ] at hp
            rw [List.getElem?_dropLast] at hp ⊢
            simp only [List.length_drop, List.length_map, List.length_cons, halves_length] at hp ⊢
            split at hp
            · rw [if_pos (by omega)]
              simpa using hp
            · simp at hp
          obtain ⟨ht, rfl⟩ := hdl (t + 1) p hp'
          rw [Nat.zero_add]
          refine ⟨by simp, by simp, fun w h1 h2 => ?_⟩
          have h4 := (sz_half (R := r) (j := t + 1) hR (by omega)).2 (by omega)
          omega
  obtain ⟨l0, rest, eu, hu0, hrl, hrest⟩ := hup
  obtain ⟨ls, root, es, ll, lr, lg⟩ := sUpFrom_ok hR hRe hw rest 0 l0 hu0 (by omega) hrest
  obtain ⟨ds, ed, dl, dg⟩ := sDownFrom_ok hR hRe hw (root := root.map (·.1)) (by rw [List.length_map]; exact lr)
    (top_one hR1 hR) ls 0 (by intro h; rw [h] at ll; simp at ll) (by omega) lg
  obtain ⟨t, en, ht⟩ := newVals_ok (n := n) (zero := zero) hR1 hc (ds := ds) (by omega)
    (fun t l h => by have := dg t l h; rwa [Nat.zero_add] at this)
  refine ⟨t, ?_, ht⟩
  unfold sHalf
  simp only [rd, List.getElem?_cons_zero, List.getElem?_cons_succ, ok_bind]
  rw [eu, ok_bind]
  simp only [es, ok_bind, ed, en]

end Agg
end SecJoin
