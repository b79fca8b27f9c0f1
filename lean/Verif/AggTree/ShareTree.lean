import Verif.AggTree.ShareLoop
import Verif.AggTree.SecureProps
/-!
# The whole tree on shares
-/
namespace SecJoin
namespace Agg
open Gmw.Wires (Col Mem Env Cir mapCall leafCall)

/-! ## The leaves -/

/-- The control bits of a half. -/
def hb : H → List Bool → List Bool
  | .pre, c => c
  | .suf, c => sufBits c

theorem zip_zw (a b : List (BitVec w)) (c d : List Bool) :
    List.zip (List.zipWith (· ^^^ ·) a b) (List.zipWith (· ^^ ·) c d) = X (List.zip a c) (List.zip b d) := by
  induction a generalizing b c d with
  | nil => simp
  | cons x a ih =>
    cases b with
    | nil => cases c <;> simp
    | cons y b =>
      cases c with
      | nil => simp
      | cons z c =>
        cases d with
        | nil => simp
        | cons u d =>
          simp only [List.zipWith_cons_cons, List.zip_cons_cons, ih]
          rfl

theorem xorN_zero : xorN ((0 : BitVec w), false) (0, false) = (0, false) := by simp [xorN]

theorem setLeafVals_zw {xs0 xs1 : List (BitVec w)} {b0 b1 : List Bool} (n16 : Nat) (hx : xs0.length = xs1.length) (h0 : b0.length = xs0.length)
    (h1 : b1.length = xs1.length) :
    setLeafVals 0 n16 (List.zipWith (· ^^^ ·) xs0 xs1) (List.zipWith (· ^^ ·) b0 b1) = X (setLeafVals 0 n16 xs0 b0) (setLeafVals 0 n16 xs1 b1) := by
  unfold setLeafVals
  rw [zip_zw]
  unfold X
  rw [List.zipWith_append (by simp [hx, h0, h1])]
  have : (List.zipWith (· ^^^ ·) xs0 xs1).length = xs0.length := by simp [hx]
  rw [this, ← hx, zw_replicate, xorN_zero]

theorem hb_zw (h : H) {c0 c1 : List Bool} (hc : c0.length = c1.length) : hb h (List.zipWith (· ^^ ·) c0 c1) = List.zipWith (· ^^ ·) (hb h c0) (hb h c1) := by
  cases h with
  | pre => rfl
  | suf =>
    unfold hb sufBits
    rw [List.zipWith_append (by simp [hc])]
    cases c0 <;> cases c1 <;> simp_all

theorem hb_length (h : H) {c : List Bool} (hc : 1 ≤ c.length) : (hb h c).length = c.length := by
  cases h with
  | pre => rfl
  | suf => simp [hb, sufBits]; omega

theorem leavesOf_get (t : AggType) (zero : V) (n16 : Nat) (xs : List V) (c : List Bool) {h : H} (hh : t.has h = true) :
    (leavesOf t zero n16 xs c).1.get h = (unzipAlt (setLeafVals zero n16 xs (hb h c))).1 ∧
      (leavesOf t zero n16 xs c).2.get h = (unzipAlt (setLeafVals zero n16 xs (hb h c))).2 := by
  cases h with
  | pre =>
    simp only [AggType.has] at hh
    simp [leavesOf, Lv.get, hh, hb]
  | suf =>
    simp only [AggType.has] at hh
    simp [leavesOf, Lv.get, hh, hb]

theorem setLeafVals_len {zero : V} {n16 : Nat} {xs : List V} {c : List Bool} (h : c.length = xs.length) (hn : xs.length ≤ n16) :
    (setLeafVals zero n16 xs c).length = n16 := by
  unfold setLeafVals
  simp [h]
  omega

theorem leavesOf_len {t : AggType} {zero : V} {n16 : Nat} {xs : List V} {c : List Bool} (hc : c.length = xs.length) (h1 : 1 ≤ c.length)
    (hn : xs.length ≤ n16) (he : n16 % 2 = 0) : (leavesOf t zero n16 xs c).Len t (n16 / 2) := by
  refine ⟨fun h hh => ?_, fun h hh => ?_⟩
  · rw [(leavesOf_get t zero n16 xs c hh).1]
    have := unzipAlt_length (setLeafVals zero n16 xs (hb h c))
    rw [setLeafVals_len (by rw [hb_length h h1, hc]) hn] at this
    omega
  · rw [(leavesOf_get t zero n16 xs c hh).2]
    have := unzipAlt_length (setLeafVals zero n16 xs (hb h c))
    rw [setLeafVals_len (by rw [hb_length h h1, hc]) hn] at this
    omega

theorem leavesOf_zw {t : AggType} {n16 : Nat} {xs0 xs1 : List (BitVec w)} {c0 c1 : List Bool} (hx : xs0.length = xs1.length) (h0 : c0.length = xs0.length)
    (h1 : c1.length = xs1.length) (hn : xs0.length ≤ n16) (hp : 1 ≤ xs0.length) {h : H} (hh : t.has h = true) :
    XS h (leavesOf t 0 n16 xs0 c0, leavesOf t 0 n16 xs1 c1) =
      unzipAlt (setLeafVals 0 n16 (List.zipWith (· ^^^ ·) xs0 xs1) (hb h (List.zipWith (· ^^ ·) c0 c1))) := by
  have e0 : (hb h c0).length = xs0.length := by rw [hb_length h (by omega), h0]
  have e1 : (hb h c1).length = xs1.length := by rw [hb_length h (by omega), h1]
  rw [hb_zw h (by omega), setLeafVals_zw n16 hx e0 e1, zw_unzip _ _ (by rw [setLeafVals_len e0 hn, setLeafVals_len e1 (by omega)])]
  unfold XS
  rw [(leavesOf_get t 0 n16 xs0 c0 hh).1, (leavesOf_get t 0 n16 xs0 c0 hh).2, (leavesOf_get t 0 n16 xs1 c1 hh).1, (leavesOf_get t 0 n16 xs1 c1 hh).2]

/-! ## The levels before the loop -/

theorem onPairs_ok {t : AggType} {F : H → Res (List α × List α)} (hF : ∀ h, t.has h = true → ∃ x, F h = .ok x) :
    ∃ s : Sp α, onPairs t (F .pre) (F .suf) = .ok s ∧ ∀ h, t.has h = true → F h = .ok (s.1.get h, s.2.get h) := by
  unfold onPairs
  have h1 := hF .pre
  have h2 := hF .suf
  simp only [AggType.has] at h1 h2
  cases hp : t.hasPre with
  | false =>
    cases hs : t.hasSuf with
    | false =>
      refine ⟨(⟨[], []⟩, ⟨[], []⟩), rfl, fun h hh => ?_⟩
      cases h <;> simp_all [AggType.has]
    | true =>
      obtain ⟨x, hx⟩ := h2 hs
      refine ⟨(⟨[], x.1⟩, ⟨[], x.2⟩), by simp [hx, ok_bind], fun h hh => ?_⟩
      cases h with
      | pre => simp_all [AggType.has]
      | suf => exact hx
  | true =>
    obtain ⟨y, hy⟩ := h1 hp
    cases hs : t.hasSuf with
    | false =>
      refine ⟨(⟨y.1, []⟩, ⟨y.2, []⟩), by simp [hy, ok_bind], fun h hh => ?_⟩
      cases h with
      | suf => simp_all [AggType.has]
      | pre => exact hy
    | true =>
      obtain ⟨x, hx⟩ := h2 hs
      refine ⟨(⟨y.1, x.1⟩, ⟨y.2, x.2⟩), by simp [hx, hy, ok_bind], fun h hh => ?_⟩
      cases h with
      | pre => exact hy
      | suf => exact hx

theorem zeroLevel_get (t : AggType) (zero : α) (s : Nat) {h : H} (hh : t.has h = true) :
    (zeroLevel t zero s).1.get h = List.replicate (s / 2) zero ∧ (zeroLevel t zero s).2.get h = List.replicate (s / 2) zero := by
  cases h <;> simp_all [zeroLevel, Lv.get, AggType.has]

theorem zeroLevel_len (t : AggType) (zero : α) (s : Nat) : (zeroLevel t zero s).Len t (s / 2) :=
  ⟨fun h hh => by rw [(zeroLevel_get t zero s hh).1]; simp, fun h hh => by rw [(zeroLevel_get t zero s hh).2]; simp⟩

/-- The levels of both parties before the loop of `upstream`, one half. -/
theorem zeroLevel_XS (t : AggType) (s : Nat) {h : H} (hh : t.has h = true) :
    XS h (zeroLevel t ((0 : BitVec w), false) s, zeroLevel t (0, false) s) = (List.replicate (s / 2) (0, false), List.replicate (s / 2) (0, false)) := by
  unfold XS
  rw [(zeroLevel_get t _ s hh).1, (zeroLevel_get t _ s hh).2, X, zw_replicate, xorN_zero]

/-- Levels that halve. -/
theorem levels_halves {T : TreeEnv} {t : AggType} {g : Nat → Sp α × Sp α} (hg : ∀ s, Both t (s / 2) (g s)) : ∀ (k lvl : Nat),
    (∀ j s, (2 * 2 ^ k :: 2 ^ k :: halves k (2 ^ k))[j]? = some s → j < k + 1 → T.At (lvl + j) (s / 2)) →
    LevelsOk T t lvl (2 * 2 ^ k :: 2 ^ k :: halves k (2 ^ k)) ((2 ^ k :: halves k (2 ^ k)).dropLast.map g)
  | 0, lvl, h => h 0 _ rfl (by omega)
  | k + 1, lvl, h => by
    have e : 2 ^ (k + 1) / 2 = 2 ^ k := by rw [Nat.pow_succ]; omega
    have e2 : 2 ^ (k + 1) = 2 * 2 ^ k := by rw [Nat.pow_succ]; omega
    have e3 : 2 * 2 ^ (k + 1) / 2 = 2 ^ (k + 1) := by omega
    have eh : halves (k + 1) (2 ^ (k + 1)) = 2 ^ k :: halves k (2 ^ k) := by rw [halves, e]
    rw [eh] at h ⊢
    have ed : (2 ^ (k + 1) :: 2 ^ k :: halves k (2 ^ k)).dropLast = 2 ^ (k + 1) :: (2 ^ k :: halves k (2 ^ k)).dropLast := rfl
    rw [ed, List.map_cons]
    refine ⟨h 0 _ rfl (by omega), by rw [e3, e2]; omega, by rw [e3], hg _, ?_⟩
    have := levels_halves hg k (lvl + 1) (fun j s hs hj => by
      have := h (j + 1) s (by rw [List.getElem?_cons_succ, e2]; exact hs) (by omega)
      rwa [show lvl + 1 + j = lvl + (j + 1) by omega])
    rw [e2]
    exact this

/-- The start of one half, as in `sHalf`. -/
def sStart (p : Params) (zero : V) (all : List (V × Bool) × List (V × Bool)) :
    Res ((List (V × Bool) × List (V × Bool)) × List (List (V × Bool) × List (V × Bool))) := do
  let init := p.sizes.map fun s => (List.replicate (s / 2) (zero, false), List.replicate (s / 2) (zero, false))
  let s0 ← rd p.sizes 0
  let s1 ← rd p.sizes 1
  if p.complete then .ok (all, (init.drop 1).dropLast) else do
    let l1 ← copySplit (zero, false) all (p.r * 2) p.r s1
    .ok ((all.1.take (s0 / 2), all.2.take (s0 / 2)), l1 :: (init.drop 2).dropLast)

theorem sHalf_eq (p : Params) (d : Dir V) (zero : V) (leaves : List (V × Bool)) : sHalf p d zero leaves = (do
    let (l0, rest) ← sStart p zero (unzipAlt leaves)
    let (ls, root) ← sUpFrom d l0 rest
    let ds ← sDownFrom d (root.map (·.1)) ls
    newVals p zero ds) := by
  unfold sHalf sStart
  cases h0 : rd p.sizes 0 with
  | error e => rfl
  | ok s0 =>
  cases h1 : rd p.sizes 1 with
  | error e => rfl
  | ok s1 =>
  simp only [ok_bind]

theorem start_ok {w : Nat} {T : TreeEnv} {t : AggType} {n k R r : Nat} {c : Bool} (hR1 : 1 ≤ R)
    (hc : c = true ∧ r = 0 ∧ R = 2 ^ k ∨ c = false ∧ r = R ∧ R < 2 ^ k ∧ R % 16 = 0 ∧ 16 ≤ 2 ^ k)
    (hT : ∀ j s, (2 * R :: 2 ^ k :: halves k (2 ^ k))[j]? = some s → j < k + 1 → T.At j (s / 2))
    {a0 a1 : Sp (BitVec w × Bool)} (h0 : a0.Len t ((2 ^ k + R) / 2)) (h1 : a1.Len t ((2 ^ k + R) / 2)) :
    ∃ l0 r0 l1 r1, startLevels t ⟨n, 2 ^ k + R, r, c, 2 * R :: 2 ^ k :: halves k (2 ^ k)⟩ 0 a0 = .ok (l0, r0) ∧
      startLevels t ⟨n, 2 ^ k + R, r, c, 2 * R :: 2 ^ k :: halves k (2 ^ k)⟩ 0 a1 = .ok (l1, r1) ∧
      Both t (2 * R / 2) (l0, l1) ∧ LevelsOk T t 0 (2 * R :: 2 ^ k :: halves k (2 ^ k)) (List.zip r0 r1) ∧
      (c = false → 1 ≤ (List.zip r0 r1).length) ∧
      ∀ h, t.has h = true → sStart ⟨n, 2 ^ k + R, r, c, 2 * R :: 2 ^ k :: halves k (2 ^ k)⟩ 0 (XS h (a0, a1)) =
        .ok (XS h (l0, l1), (List.zip r0 r1).map (XS h)) := by
  have q0 : ∀ a b l, rd (a :: b :: l) 0 = .ok (a : Nat) := fun _ _ _ => rfl
  have q1 : ∀ a b l, rd (a :: b :: l) 1 = .ok (b : Nat) := fun _ _ _ => rfl
  have zz : ∀ L : List Nat, List.zip ((L.map (zeroLevel t ((0 : BitVec w), false))).dropLast) ((L.map (zeroLevel t ((0 : BitVec w), false))).dropLast) =
      L.dropLast.map fun s => (zeroLevel t ((0 : BitVec w), false) s, zeroLevel t (0, false) s) := fun L => by
    rw [← List.map_dropLast, List.zip_map']
  have zs : ∀ (h : H), t.has h = true → ∀ L : List Nat, ((L.map (fun s => (List.replicate (s / 2) ((0 : BitVec w), false), List.replicate (s / 2) ((0 : BitVec w), false)))).dropLast) =
      (L.dropLast.map fun s => (zeroLevel t ((0 : BitVec w), false) s, zeroLevel t (0, false) s)).map (XS h) := fun h hh L => by
    rw [← List.map_dropLast, List.map_map]
    refine List.map_congr_left fun s _ => ?_
    rw [Function.comp, zeroLevel_XS t s hh]
  have hg : ∀ s, Both t (s / 2) (zeroLevel t ((0 : BitVec w), false) s, zeroLevel t (0, false) s) := fun s => ⟨zeroLevel_len _ _ _, zeroLevel_len _ _ _⟩
  rcases hc with ⟨rfl, rfl, rfl⟩ | ⟨rfl, rfl, g1, g2, g3⟩
  · refine ⟨a0, _, a1, _, rfl, rfl, ⟨?_, ?_⟩, ?_, fun h => (by cases h), fun h hh => ?_⟩
    · rw [show 2 * 2 ^ k / 2 = (2 ^ k + 2 ^ k) / 2 by omega]; exact h0
    · rw [show 2 * 2 ^ k / 2 = (2 ^ k + 2 ^ k) / 2 by omega]; exact h1
    · rw [List.map_cons, List.drop_one, List.tail_cons, zz]
      exact levels_halves hg k 0 (fun j s hs hj => by rw [Nat.zero_add]; exact hT j s hs hj)
    · unfold sStart
      rw [q0, ok_bind, q1, ok_bind, if_pos rfl]
      have := zs h hh (2 ^ k :: halves k (2 ^ k))
      rw [← zz] at this
      exact congrArg (fun l => Except.ok (XS h (a0, a1), l)) this
  · have hk : 4 ≤ k := by
      by_contra hcon
      have : 2 ^ k ≤ 2 ^ 3 := Nat.pow_le_pow_right (by omega) (by omega)
      omega
    obtain ⟨k', rfl⟩ : ∃ k', k = k' + 1 := ⟨k - 1, by omega⟩
    have e : 2 ^ (k' + 1) / 2 = 2 ^ k' := by rw [Nat.pow_succ]; omega
    have e2 : 2 ^ (k' + 1) = 2 * 2 ^ k' := by rw [Nat.pow_succ]; omega
    have eh : halves (k' + 1) (2 ^ (k' + 1)) = 2 ^ k' :: halves k' (2 ^ k') := by rw [halves, e]
    obtain ⟨c0, c0e, c0h⟩ := onPairs_ok (t := t) (F := fun h => copySplit ((0 : BitVec w), false) (a0.1.get h, a0.2.get h) (r * 2) r (2 ^ (k' + 1)))
      (fun h hh => by obtain ⟨o, ho, -⟩ := copySplit_ok (z := ((0 : BitVec w), false)) (src := (a0.1.get h, a0.2.get h)) g1 g2 g3 (h0.1 h hh) (h0.2 h hh); exact ⟨o, ho⟩)
    obtain ⟨c1, c1e, c1h⟩ := onPairs_ok (t := t) (F := fun h => copySplit ((0 : BitVec w), false) (a1.1.get h, a1.2.get h) (r * 2) r (2 ^ (k' + 1)))
      (fun h hh => by obtain ⟨o, ho, -⟩ := copySplit_ok (z := ((0 : BitVec w), false)) (src := (a1.1.get h, a1.2.get h)) g1 g2 g3 (h1.1 h hh) (h1.2 h hh); exact ⟨o, ho⟩)
    have ln : ∀ (a c : Sp (BitVec w × Bool)), a.Len t ((2 ^ (k' + 1) + r) / 2) →
        (∀ h, t.has h = true → copySplit ((0 : BitVec w), false) (a.1.get h, a.2.get h) (r * 2) r (2 ^ (k' + 1)) = .ok (c.1.get h, c.2.get h)) →
        c.Len t (2 ^ (k' + 1) / 2) := by
      intro a c ha hc
      refine ⟨fun h hh => ?_, fun h hh => ?_⟩
      · obtain ⟨o, ho, o1, o2⟩ := copySplit_ok (z := ((0 : BitVec w), false)) (src := (a.1.get h, a.2.get h)) g1 g2 g3 (ha.1 h hh) (ha.2 h hh)
        rw [hc h hh] at ho
        cases ho
        exact o1
      · obtain ⟨o, ho, o1, o2⟩ := copySplit_ok (z := ((0 : BitVec w), false)) (src := (a.1.get h, a.2.get h)) g1 g2 g3 (ha.1 h hh) (ha.2 h hh)
        rw [hc h hh] at ho
        cases ho
        exact o2
    have cut : ∀ (a : Lv (BitVec w × Bool)) m h, (⟨a.pre.take m, a.suf.take m⟩ : Lv (BitVec w × Bool)).get h = (a.get h).take m := by
      intro a m h; cases h <;> rfl
    refine ⟨(⟨a0.1.pre.take (2 * r / 2), a0.1.suf.take (2 * r / 2)⟩, ⟨a0.2.pre.take (2 * r / 2), a0.2.suf.take (2 * r / 2)⟩),
      c0 :: (((halves (k' + 1) (2 ^ (k' + 1))).map (zeroLevel t ((0 : BitVec w), false))).dropLast),
      (⟨a1.1.pre.take (2 * r / 2), a1.1.suf.take (2 * r / 2)⟩, ⟨a1.2.pre.take (2 * r / 2), a1.2.suf.take (2 * r / 2)⟩),
      c1 :: (((halves (k' + 1) (2 ^ (k' + 1))).map (zeroLevel t ((0 : BitVec w), false))).dropLast), ?_, ?_, ⟨⟨?_, ?_⟩, ⟨?_, ?_⟩⟩, ?_, fun _ => by simp, fun h hh => ?_⟩
    · unfold startLevels
      rw [q0, ok_bind, q1, ok_bind]
      simp only [Bool.false_eq_true, if_false]
      simp only [Lv.get] at c0e
      rw [c0e, ok_bind]
      rfl
    · unfold startLevels
      rw [q0, ok_bind, q1, ok_bind]
      simp only [Bool.false_eq_true, if_false]
      simp only [Lv.get] at c1e
      rw [c1e, ok_bind]
      rfl
    · intro h hh; rw [cut, List.length_take, h0.1 h hh]; omega
    · intro h hh; rw [cut, List.length_take, h0.2 h hh]; omega
    · intro h hh; rw [cut, List.length_take, h1.1 h hh]; omega
    · intro h hh; rw [cut, List.length_take, h1.2 h hh]; omega
    · rw [List.zip_cons_cons, zz]
      refine ⟨hT 0 _ rfl (by omega), by omega, by omega, ⟨ln a0 c0 h0 c0h, ln a1 c1 h1 c1h⟩, ?_⟩
      have := levels_halves hg k' 1 (T := T) (fun j s hs hj => by
        have := hT (j + 1) s (by rw [List.getElem?_cons_succ, eh, e2]; exact hs) (by omega)
        rwa [show 1 + j = j + 1 by omega])
      rw [eh, e2]
      exact this
    · have cs := zw_copySplit (g := xorN) xorN_zero (c0h h hh) (c1h h hh) ((h0.1 h hh).trans (h1.1 h hh).symm) ((h0.2 h hh).trans (h1.2 h hh).symm)
      have cs' : copySplit ((0 : BitVec w), false) (XS h (a0, a1)) (r * 2) r (2 ^ (k' + 1)) = .ok (XS h (c0, c1)) := cs
      unfold sStart
      rw [q0, ok_bind, q1, ok_bind]
      simp only [Bool.false_eq_true, if_false]
      rw [cs', ok_bind, List.zip_cons_cons, zz, List.map_cons (f := XS h), ← zs h hh]
      simp only [XS, cut, X, List.take_zipWith]
      rfl

/-! ## The values of the leaves -/

theorem newLeaves_ok {w : Nat} {t : AggType} {n k R r : Nat} {c : Bool} (hR1 : 1 ≤ R)
    (hc : c = true ∧ r = 0 ∧ R = 2 ^ k ∨ c = false ∧ r = R ∧ R < 2 ^ k ∧ R % 16 = 0 ∧ 16 ≤ 2 ^ k) {ds : List (Sp (BitVec w))}
    (h0 : 1 ≤ ds.length) (h1 : c = false → 2 ≤ ds.length)
    (hl : ∀ (i : Nat) d s, ds[i]? = some d → (2 * R :: 2 ^ k :: halves k (2 ^ k))[i]? = some s → Sp.Len t (s / 2) d) :
    ∃ v, newLeaves t ⟨n, 2 ^ k + R, r, c, 2 * R :: 2 ^ k :: halves k (2 ^ k)⟩ 0 ds = .ok v ∧ v.Len t ((2 ^ k + R) / 2) ∧
      ∀ h, t.has h = true → newVals ⟨n, 2 ^ k + R, r, c, 2 * R :: 2 ^ k :: halves k (2 ^ k)⟩ 0 (ds.map fun d => (d.1.get h, d.2.get h)) = .ok (v.1.get h, v.2.get h) := by
  have key : ∀ h, t.has h = true → ∃ x, newVals ⟨n, 2 ^ k + R, r, c, 2 * R :: 2 ^ k :: halves k (2 ^ k)⟩ 0 (ds.map fun d => (d.1.get h, d.2.get h)) = .ok x ∧
      x.1.length = (2 ^ k + R) / 2 ∧ x.2.length = (2 ^ k + R) / 2 := by
    intro h hh
    have l0 := hl 0 ds[0] (2 * R) (by simp) rfl
    refine newVals_len hR1 hc (d0 := (ds[0].1.get h, ds[0].2.get h)) ?_ (l0.1 h hh) (l0.2 h hh) (fun hf => ?_)
    · rw [List.getElem?_map, List.getElem?_eq_getElem (by omega)]; rfl
    · have := h1 hf
      have l1 := hl 1 ds[1] (2 ^ k) (by simp) rfl
      refine ⟨(ds[1].1.get h, ds[1].2.get h), ?_, l1.1 h hh, l1.2 h hh⟩
      rw [List.getElem?_map, List.getElem?_eq_getElem (by omega)]; rfl
  obtain ⟨v, v1, v2⟩ := onPairs_ok (t := t) (F := fun h => newVals ⟨n, 2 ^ k + R, r, c, 2 * R :: 2 ^ k :: halves k (2 ^ k)⟩ 0 (ds.map fun d => (d.1.get h, d.2.get h)))
    (fun h hh => by obtain ⟨x, hx, -⟩ := key h hh; exact ⟨x, hx⟩)
  refine ⟨v, ?_, ⟨fun h hh => ?_, fun h hh => ?_⟩, v2⟩
  · exact v1
  · obtain ⟨x, hx, x1, x2⟩ := key h hh
    rw [v2 h hh] at hx
    cases hx
    exact x1
  · obtain ⟨x, hx, x1, x2⟩ := key h hh
    rw [v2 h hh] at hx
    cases hx
    exact x2

/-! ## The tree -/

/-- What the tree needs for its parameters `p`: circuits that compute those that `AggTree` builds for `f`, OLEs and memory for each evaluation. -/
structure TreeEnv.Ok (T : TreeEnv) (w : Nat) (t : AggType) (f : BitVec w → BitVec w → BitVec w) (p : Params) : Prop where
  up : CirOk (upstreamCir t) w f T.up
  down : CirOk (downstreamCir t) w f T.down
  leaf : CirOk (leafCircuit t) w f T.leaf
  consec : ∀ b ∈ T.leaf.outs, b ≠ [] ∧ ∀ j, (h : j + 1 < b.length) → b[j + 1] = b[j] + 1
  levels : ∀ (j : Nat) s, p.sizes[j]? = some s → j + 1 < p.sizes.length → T.At j (s / 2)
  leafs : T.leafE.Ok (p.n16 / 2) T.leaf ∧ T.leafM0.Fits (p.n16 / 2) ∧ T.leafM1.Fits (p.n16 / 2)

theorem map_pair_zip (ds : List (α × β)) (f : α → γ) (g : β → δ) (k : γ → δ → ε) :
    List.zipWith k ((ds.map (·.1)).map f) ((ds.map (·.2)).map g) = ds.map fun d => k (f d.1) (g d.2) := by
  induction ds with
  | nil => rfl
  | cons d ds ih => simp only [List.map_cons, List.zipWith_cons_cons, ih]

theorem rd_zw {g : α → β → γ} {a : List α} {b : List β} {i : Nat} {x : α} {y : β} (ha : a[i]? = some x) (hb : b[i]? = some y) :
    rd (List.zipWith g a b) i = .ok (g x y) := by
  unfold rd
  rw [List.getElem?_zipWith, ha, hb]

theorem getElem?_getD {l : List α} {i : Nat} (h : i < l.length) (d : α) : l[i]? = some (l.getD i d) := by
  rw [List.getElem?_eq_getElem h, getD_eq_getElem' h]

theorem leafSide_zw {w : Nat} {t : AggType} {f : BitVec w → BitVec w → BitVec w} {m : Nat} {a0 a1 : Lv (BitVec w × Bool)} {v0 v1 : Lv (BitVec w)}
    (ha0 : a0.Len t m) (ha1 : a1.Len t m) (hv0 : v0.Len t m) (hv1 : v1.Len t m) {o0 o1 : List (BitVec w)} (h0 : o0.length = m) (h1 : o1.length = m)
    {lp ls : List (BitVec w × Bool)} {vp vs : List (BitVec w)}
    (hlp : t.has .pre = true → lp = X (a0.get .pre) (a1.get .pre)) (hls : t.has .suf = true → ls = X (a0.get .suf) (a1.get .suf))
    (hvp : t.has .pre = true → vp = XV (v0.get .pre) (v1.get .pre)) (hvs : t.has .suf = true → vs = XV (v0.get .suf) (v1.get .suf))
    (hr : ∀ r < m, o0.getD r 0 ^^^ o1.getD r 0 = leafFn t f (if t.hasPre then (nodeX a0 a1 r).1.1 else (nodeX a0 a1 r).2.1)
      ((valX v0 v1 r).1, (nodeX a0 a1 r).1.2) ((valX v0 v1 r).2, (nodeX a0 a1 r).2.2)) :
    leafSide t f 0 m lp ls vp vs = .ok (XV o0 o1) := by
  have e : XV o0 o1 = (List.range m).map fun r => o0.getD r 0 ^^^ o1.getD r 0 := by
    apply List.ext_getElem
    · simp [h0, h1]
    · intro i k1 k2
      have hi : i < m := by simpa using k2
      simp only [List.getElem_zipWith, List.getElem_map, List.getElem_range]
      rw [getD_eq_getElem' (by omega), getD_eq_getElem' (by omega)]
  rw [e]
  unfold leafSide
  refine mapRes_ok (g := fun r => o0.getD r 0 ^^^ o1.getD r 0) fun i hi => ?_
  have hi : i < m := by simpa using hi
  have rp : t.hasPre = true → rd lp i = .ok (nodeX a0 a1 i).1 := fun h => by
    rw [hlp h]
    exact rd_zw (getElem?_getD (by rw [ha0 .pre h]; omega) _) (getElem?_getD (by rw [ha1 .pre h]; omega) _)
  have rs : t.hasSuf = true → rd ls i = .ok (nodeX a0 a1 i).2 := fun h => by
    rw [hls h]
    exact rd_zw (getElem?_getD (by rw [ha0 .suf h]; omega) _) (getElem?_getD (by rw [ha1 .suf h]; omega) _)
  have qp : t.hasPre = true → rd vp i = .ok (valX v0 v1 i).1 := fun h => by
    rw [hvp h]
    exact rd_zw (getElem?_getD (by rw [hv0 .pre h]; omega) _) (getElem?_getD (by rw [hv1 .pre h]; omega) _)
  have qs : t.hasSuf = true → rd vs i = .ok (valX v0 v1 i).2 := fun h => by
    rw [hvs h]
    exact rd_zw (getElem?_getD (by rw [hv0 .suf h]; omega) _) (getElem?_getD (by rw [hv1 .suf h]; omega) _)
  rw [hr i hi]
  cases t with
  | pre =>
    simp only [AggType.hasPre, AggType.hasSuf, if_true, Bool.false_eq_true, if_false, ok_bind, rp rfl, qp rfl]
    rfl
  | suf =>
    simp only [AggType.hasPre, AggType.hasSuf, if_true, Bool.false_eq_true, if_false, ok_bind, rs rfl, qs rfl]
    rfl
  | full =>
    simp only [AggType.hasPre, AggType.hasSuf, if_true, ok_bind, rp rfl, qp rfl, rs rfl, qs rfl]

theorem dlevels_len {T : TreeEnv} {t : AggType} : ∀ {lvl : Nat} {sizes : List Nat} {ls : List (Sp α × Sp α)}, DLevels T t lvl sizes ls → ls.length ≤ sizes.length
  | _, [], [], h => h.elim
  | _, [], [_], h => h.elim
  | _, [], _ :: _ :: _, h => h.elim
  | _, _ :: _, [], h => by simp
  | _, _ :: _, [_], h => by simp
  | _, [_], _ :: _ :: _, h => h.elim
  | _, s :: s' :: ss, c :: p :: ps, ⟨_, _, _, _, h⟩ => by
    have := dlevels_len h
    simp only [List.length_cons] at this ⊢
    omega

/-- The tree on shares gives shares of what the tree on the shared rows gives. -/
theorem aggTreeGmw_eq {w : Nat} {t : AggType} {f : BitVec w → BitVec w → BitVec w} {T : TreeEnv} {xs0 xs1 : List (BitVec w)} {c0 c1 : List Bool} {p : Params}
    (hp : computeTreeSizes xs0.length = .ok p) (hT : T.Ok w t f p) (hn : 2 ≤ xs0.length) (hx : xs1.length = xs0.length) (h0 : c0.length = xs0.length)
    (h1 : c1.length = xs0.length) :
    ∃ o0 o1, aggTreeGmw T w t xs0 xs1 c0 c1 = .ok (o0, o1) ∧ o0.length = xs0.length ∧ o1.length = xs0.length ∧
      aggTree t f 0 (List.zipWith (· ^^^ ·) xs0 xs1) (List.zipWith (· ^^ ·) c0 c1) = .ok (List.zipWith (· ^^^ ·) o0 o1) := by
  obtain ⟨k, R, r, c, e, hR1, hR2, hnN, hc, -⟩ := sizes_ok hn
  rw [hp] at e
  obtain rfl : p = _ := Except.ok.inj e
  have hev : (2 ^ k + R) % 2 = 0 := by
    rcases hc with ⟨_, _, h⟩ | ⟨_, _, _, h, h'⟩
    · omega
    · obtain ⟨j, rfl⟩ : ∃ j, k = j + 1 := ⟨k - 1, by
        by_contra hcon
        have : k = 0 := by omega
        subst this
        omega⟩
      rw [Nat.pow_succ]
      omega
  have hlev : ∀ j s, (2 * R :: 2 ^ k :: halves k (2 ^ k))[j]? = some s → j < k + 1 → T.At j (s / 2) := fun j s hs hj =>
    hT.levels j s hs (by simp only [List.length_cons, halves_length]; omega)
  have A0 := leavesOf_len (t := t) (zero := (0 : BitVec w)) (n16 := 2 ^ k + R) h0 (by omega) hnN hev
  have A1 := leavesOf_len (t := t) (zero := (0 : BitVec w)) (n16 := 2 ^ k + R) (h1.trans hx.symm) (by omega) (by omega) hev
  obtain ⟨l0, r0, l1, r1, s0, s1, sb, sl, sn, sx⟩ := start_ok (n := xs0.length) hR1 hc hlev A0 A1
  obtain ⟨ls, root, u1, u2, u3, -, u5, u6, u7⟩ := upLoop_ok hT.up (List.zip r0 r1) 0 (2 * R) (2 ^ k :: halves k (2 ^ k)) (l0, l1) sl sb
  have topl : ∀ (l : Lv (BitVec w × Bool)) m, l.Len t m → (⟨l.pre.map (·.1), l.suf.map (·.1)⟩ : Lv (BitVec w)).Len t m := by
    intro l m hl h hh
    have := hl h hh
    cases h <;> simpa [Lv.get] using this
  have topg : ∀ (l : Lv (BitVec w × Bool)) h, (⟨l.pre.map (·.1), l.suf.map (·.1)⟩ : Lv (BitVec w)).get h = (l.get h).map (·.1) := by
    intro l h; cases h <;> rfl
  obtain ⟨ds, d1, d2, d3, d4⟩ := downLoop_ok hT.down (root := (⟨root.1.pre.map (·.1), root.1.suf.map (·.1)⟩, ⟨root.2.pre.map (·.1), root.2.suf.map (·.1)⟩))
    ls 0 _ u2 (by rw [u3]; exact topl _ _ u5) (by rw [u3]; exact topl _ _ u6)
  have dl : ds.length = (List.zip r0 r1).length + 1 := d2.trans u3
  obtain ⟨v0, v0e, v0l, v0h⟩ := newLeaves_ok (t := t) (n := xs0.length) hR1 hc (ds := ds.map (·.1)) (by rw [List.length_map]; omega)
    (fun h => by have := sn h; rw [List.length_map]; omega) (fun i d s hd hs => by
      rw [List.getElem?_map] at hd
      cases hdi : ds[i]? with
      | none => rw [hdi] at hd; cases hd
      | some y =>
        rw [hdi] at hd
        cases hd
        exact (d3 i y s hdi hs).1)
  obtain ⟨v1, v1e, v1l, v1h⟩ := newLeaves_ok (t := t) (n := xs0.length) hR1 hc (ds := ds.map (·.2)) (by rw [List.length_map]; omega)
    (fun h => by have := sn h; rw [List.length_map]; omega) (fun i d s hd hs => by
      rw [List.getElem?_map] at hd
      cases hdi : ds[i]? with
      | none => rw [hdi] at hd; cases hd
      | some y =>
        rw [hdi] at hd
        cases hd
        exact (d3 i y s hdi hs).2)
  obtain ⟨o0, o1, a0, b0, a1, b1, oe, ol0, ol1, la0, lb0, la1, lb1, orow⟩ := leaf_ok (by have : (0 : Nat) < (2 ^ k + R) / 2 := (by omega); exact this) hT.leaf hT.leafs.1 hT.leafs.2.1 hT.leafs.2.2 hT.consec A0 A1 v0l v1l
  have la : ∀ (a b : List (BitVec w)), a.length = (2 ^ k + R) / 2 → b.length = (2 ^ k + R) / 2 →
      ((zipAlt a b).take xs0.length).length = xs0.length := by
    intro a b ha hb
    rw [List.length_take, zipAlt_length]
    omega
  have lr : ∀ (a b : List (BitVec w)), a.length = (2 ^ k + R) / 2 → b.length = (2 ^ k + R) / 2 →
      leafRows xs0.length [TCol.v a, TCol.v b] = .ok ((zipAlt a b).take xs0.length) := by
    intro a b ha hb
    unfold leafRows
    have ea : (([TCol.v a, TCol.v b] : List (TCol w)).getD 0 (.b [])).vals = a := rfl
    have eb : (([TCol.v a, TCol.v b] : List (TCol w)).getD 1 (.b [])).vals = b := rfl
    simp only [ea, eb]
    rw [if_neg (by omega)]
  refine ⟨(zipAlt a0 b0).take xs0.length, (zipAlt a1 b1).take xs0.length, ?_, la _ _ la0 lb0, la _ _ la1 lb1, ?_⟩
  · unfold aggTreeGmw
    rw [hp, ok_bind, decide_eq_false (by omega), throwIf_false, ok_bind, decide_eq_false (by omega), throwIf_false, ok_bind]
    simp only [s0, s1, ok_bind]
    simp only [u1, ok_bind, d1, v0e, v1e, oe, ol0, ol1, lr _ _ la0 lb0, lr _ _ la1 lb1]
  · have zl : (List.zipWith (· ^^^ ·) xs0 xs1).length = xs0.length := by simp [hx]
    have zc : (List.zipWith (· ^^ ·) c0 c1).length = xs0.length := by simp [h0, h1]
    have hhalf : ∀ h, t.has h = true → sHalf ⟨xs0.length, 2 ^ k + R, r, c, 2 * R :: 2 ^ k :: halves k (2 ^ k)⟩ (dirOf f h) 0
        (setLeafVals 0 (2 ^ k + R) (List.zipWith (· ^^^ ·) xs0 xs1) (hb h (List.zipWith (· ^^ ·) c0 c1))) =
        .ok (XV (v0.1.get h) (v1.1.get h), XV (v0.2.get h) (v1.2.get h)) := by
      intro h hh
      have ex := sx h hh
      rw [leavesOf_zw hx.symm h0 (h1.trans hx.symm) hnN (by omega) hh] at ex
      rw [sHalf_eq, ex, ok_bind]
      dsimp only
      rw [u7 h hh, ok_bind]
      dsimp only
      have er : (X (root.1.get h) (root.2.get h)).map (·.1) = XV ((⟨root.1.pre.map (·.1), root.1.suf.map (·.1)⟩ : Lv (BitVec w)).get h)
          ((⟨root.2.pre.map (·.1), root.2.suf.map (·.1)⟩ : Lv (BitVec w)).get h) := by
        rw [topg, topg, X, XV, List.map_zipWith, List.zipWith_map]
        rfl
      rw [er, d4 h hh, ok_bind]
      have zn := zw_newVals (g := fun a b : BitVec w => a ^^^ b) (by simp) (v0h h hh) (v1h h hh) (fun i x y hx' hy' => by
        simp only [List.getElem?_map] at hx' hy'
        cases hdi : ds[i]? with
        | none => rw [hdi] at hx'; cases hx'
        | some z =>
          rw [hdi] at hx' hy'
          cases hx'
          cases hy'
          have hi : i < ds.length := by
            by_contra hcon
            rw [List.getElem?_eq_none (by omega)] at hdi
            cases hdi
          have hsz : i < (2 * R :: 2 ^ k :: halves k (2 ^ k)).length := by
            have := dlevels_len u2
            omega
          obtain ⟨b1, b2⟩ := d3 i z _ hdi (List.getElem?_eq_getElem hsz)
          exact ⟨(b1.1 h hh).trans (b2.1 h hh).symm, (b1.2 h hh).trans (b2.2 h hh).symm⟩)
      rw [map_pair_zip] at zn
      exact zn
    have nx := fun h (hh : t.has h = true) => leavesOf_zw (t := t) (n16 := 2 ^ k + R) hx.symm h0 (h1.trans hx.symm) hnN (by omega) hh
    unfold aggTree
    rw [zl, hp, ok_bind, decide_eq_false (by omega), throwIf_false, ok_bind]
    have eP : ((if t.hasPre then sHalf ⟨xs0.length, 2 ^ k + R, r, c, 2 * R :: 2 ^ k :: halves k (2 ^ k)⟩ (prefixDir f) 0
        (setLeafVals 0 (2 ^ k + R) (List.zipWith (· ^^^ ·) xs0 xs1) (List.zipWith (· ^^ ·) c0 c1)) else .ok ([], []) : Res _)) =
        .ok (if t.hasPre then (XV (v0.1.get .pre) (v1.1.get .pre), XV (v0.2.get .pre) (v1.2.get .pre)) else ([], [])) := by
      cases hh : t.hasPre with
      | false => rfl
      | true => simp only [if_true]; exact hhalf .pre hh
    have eS : ((if t.hasSuf then sHalf ⟨xs0.length, 2 ^ k + R, r, c, 2 * R :: 2 ^ k :: halves k (2 ^ k)⟩ (suffixDir f) 0
        (setLeafVals 0 (2 ^ k + R) (List.zipWith (· ^^^ ·) xs0 xs1) (sufBits (List.zipWith (· ^^ ·) c0 c1))) else .ok ([], []) : Res _)) =
        .ok (if t.hasSuf then (XV (v0.1.get .suf) (v1.1.get .suf), XV (v0.2.get .suf) (v1.2.get .suf)) else ([], [])) := by
      cases hh : t.hasSuf with
      | false => rfl
      | true => simp only [if_true]; exact hhalf .suf hh
    dsimp only
    rw [eP, ok_bind, eS, ok_bind]
    rw [leafSide_zw (f := f) (lp := (unzipAlt (setLeafVals 0 (2 ^ k + R) (List.zipWith (· ^^^ ·) xs0 xs1) (List.zipWith (· ^^ ·) c0 c1))).1) (ls := (unzipAlt (setLeafVals 0 (2 ^ k + R) (List.zipWith (· ^^^ ·) xs0 xs1) (sufBits (List.zipWith (· ^^ ·) c0 c1)))).1)
      (vp := (if t.hasPre then (XV (v0.1.get .pre) (v1.1.get .pre), XV (v0.2.get .pre) (v1.2.get .pre)) else ([], [])).1)
      (vs := (if t.hasSuf then (XV (v0.1.get .suf) (v1.1.get .suf), XV (v0.2.get .suf) (v1.2.get .suf)) else ([], [])).1)
      A0.1 A1.1 v0l.1 v1l.1 la0 la1 (fun h => congrArg Prod.fst (nx .pre h).symm) (fun h => congrArg Prod.fst (nx .suf h).symm)
      (fun h => by simp only [AggType.has] at h; rw [if_pos h]) (fun h => by simp only [AggType.has] at h; rw [if_pos h])
      (fun q hq => by have := (orow q hq).1; dsimp only at this; exact this), ok_bind]
    rw [leafSide_zw (f := f) (lp := (unzipAlt (setLeafVals 0 (2 ^ k + R) (List.zipWith (· ^^^ ·) xs0 xs1) (List.zipWith (· ^^ ·) c0 c1))).2) (ls := (unzipAlt (setLeafVals 0 (2 ^ k + R) (List.zipWith (· ^^^ ·) xs0 xs1) (sufBits (List.zipWith (· ^^ ·) c0 c1)))).2)
      (vp := (if t.hasPre then (XV (v0.1.get .pre) (v1.1.get .pre), XV (v0.2.get .pre) (v1.2.get .pre)) else ([], [])).2)
      (vs := (if t.hasSuf then (XV (v0.1.get .suf) (v1.1.get .suf), XV (v0.2.get .suf) (v1.2.get .suf)) else ([], [])).2)
      A0.2 A1.2 v0l.2 v1l.2 lb0 lb1 (fun h => congrArg Prod.snd (nx .pre h).symm) (fun h => congrArg Prod.snd (nx .suf h).symm)
      (fun h => by simp only [AggType.has] at h; rw [if_pos h]) (fun h => by simp only [AggType.has] at h; rw [if_pos h])
      (fun q hq => by have := (orow q hq).2; dsimp only at this; exact this), ok_bind]
    rw [if_neg (by simp [la0, la1, lb0, lb1]; omega), XV, XV, zw_zipAlt, List.take_zipWith]

end Agg
end SecJoin
