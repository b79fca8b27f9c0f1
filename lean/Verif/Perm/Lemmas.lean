import Mathlib.Data.List.Nodup
import Mathlib.Data.List.Perm.Subperm
import Verif.Perm.Model
/-!
# Lemmas about plaintext permutations

`gather` and `invList` are pure list functions to which the loops of the model are reduced.
-/
namespace SecJoin

/-- `out[i] = src[pi[i]]`. -/
def gather (pi : List Nat) (src : List α) : List α := pi.filterMap (src[·]?)

/-- The list of positions of `0, 1, ..` in `pi`. -/
def invList (pi : List Nat) : List Nat := (List.range pi.length).map (fun j => pi.idxOf j)

/-- Entries are in range and pairwise distinct. -/
def IsPermList (pi : List Nat) : Prop := (∀ x ∈ pi, x < pi.length) ∧ pi.Nodup

theorem gather_length {pi : List Nat} {src : List α} (h : ∀ x ∈ pi, x < src.length) :
    (gather pi src).length = pi.length := by
  induction pi with
  | nil => rfl
  | cons a t ih =>
    have ha : a < src.length := h a (by simp)
    simp only [gather, List.filterMap_cons, List.getElem?_eq_getElem ha, List.length_cons]
    rw [show (List.filterMap (fun x => src[x]?) t).length = (gather t src).length from rfl, ih]
    intro x hx
    exact h x (by simp [hx])

theorem gather_getElem? {pi : List Nat} {src : List α} (h : ∀ x ∈ pi, x < src.length) (i : Nat) :
    (gather pi src)[i]? = pi[i]?.bind (fun j => src[j]?) := by
  induction pi generalizing i with
  | nil => simp [gather]
  | cons a t ih =>
    have ha : a < src.length := h a (by simp)
    have ht : ∀ x ∈ t, x < src.length := fun x hx => h x (by simp [hx])
    have e : gather (a :: t) src = src[a] :: gather t src := by
      simp [gather, List.getElem?_eq_getElem ha]
    rw [e]
    cases i with
    | zero => simp [List.getElem?_eq_getElem ha]
    | succ i => simpa using ih ht i

theorem gather_getElem {pi : List Nat} {src : List α} (h : ∀ x ∈ pi, x < src.length) (i : Nat)
    (hi : i < pi.length) :
    (gather pi src)[i]'(by rw [gather_length h]; exact hi) =
      src[pi[i]]'(h _ (List.getElem_mem hi)) := by
  have := gather_getElem? h i
  rw [List.getElem?_eq_getElem (by rw [gather_length h]; exact hi), List.getElem?_eq_getElem hi] at this
  simpa [List.getElem?_eq_getElem (h _ (List.getElem_mem hi))] using this

theorem gather_ext {pi : List Nat} {src out : List α} (h : ∀ x ∈ pi, x < src.length)
    (hl : out.length = pi.length)
    (he : ∀ i (hi : i < pi.length), out[i]? = src[pi[i]]?) : out = gather pi src := by
  apply List.ext_getElem?
  intro i
  rw [gather_getElem? h]
  by_cases hi : i < pi.length
  · rw [he i hi, List.getElem?_eq_getElem hi]; rfl
  · rw [List.getElem?_eq_none (by omega), List.getElem?_eq_none (by omega)]; rfl

theorem gather_map {pi : List Nat} {src : List α} (f : α → β) :
    gather pi (src.map f) = (gather pi src).map f := by
  simp [gather, List.map_filterMap]

theorem mem_gather {pi : List Nat} {src : List α} {x : α} (h : x ∈ gather pi src) : x ∈ src := by
  simp only [gather, List.mem_filterMap] at h
  obtain ⟨a, -, h⟩ := h
  exact List.mem_of_getElem? h

theorem gather_gather {a b : List Nat} {x : List α} (ha : ∀ i ∈ a, i < b.length)
    (hb : ∀ i ∈ b, i < x.length) : gather a (gather b x) = gather (gather a b) x := by
  have hgb := gather_length hb
  have h1 : ∀ i ∈ a, i < (gather b x).length := by rw [hgb]; exact ha
  have h2 : ∀ i ∈ gather a b, i < x.length := fun i hi => hb i (mem_gather hi)
  apply List.ext_getElem?
  intro i
  rw [gather_getElem? h1, gather_getElem? h2, gather_getElem? ha]
  cases a[i]? with
  | none => rfl
  | some j => simp [gather_getElem? hb]

theorem gather_range (x : List α) : gather (List.range x.length) x = x := by
  symm
  apply gather_ext (by simp)
  · simp
  · intro i hi; simp

theorem IsPermList.range (n : Nat) : IsPermList (List.range n) := by
  refine ⟨by simp, List.nodup_range⟩

theorem IsPermList.mem {pi : List Nat} (h : IsPermList pi) {j : Nat} (hj : j < pi.length) : j ∈ pi := by
  have hsub : pi ⊆ List.range pi.length := fun x hx => by simpa using h.1 x hx
  have hp : pi.Perm (List.range pi.length) := by
    have := List.subperm_of_subset h.2 hsub
    exact this.perm_of_length_le (by simp)
  exact hp.mem_iff.mpr (by simpa using hj)

theorem isPermList_iff_perm {pi : List Nat} : IsPermList pi ↔ pi.Perm (List.range pi.length) := by
  constructor
  · intro h
    have hsub : pi ⊆ List.range pi.length := fun x hx => by simpa using h.1 x hx
    have := List.subperm_of_subset h.2 hsub
    exact this.perm_of_length_le (by simp)
  · intro h
    refine ⟨fun x hx => by simpa using h.mem_iff.mp hx, h.nodup_iff.mpr List.nodup_range⟩

theorem invList_length (pi : List Nat) : (invList pi).length = pi.length := by simp [invList]

theorem invList_getElem? {pi : List Nat} {j : Nat} (hj : j < pi.length) :
    (invList pi)[j]? = some (pi.idxOf j) := by simp [invList, hj]

theorem getElem_idxOf' {pi : List Nat} {j : Nat} (h : j ∈ pi) : pi[pi.idxOf j]? = some j := by
  have := List.idxOf_lt_length_iff.mpr h
  rw [List.getElem?_eq_getElem this]; simp

theorem idxOf_getElem' {pi : List Nat} (h : pi.Nodup) {i : Nat} (hi : i < pi.length) :
    pi.idxOf pi[i] = i := by
  exact List.Nodup.idxOf_getElem h i hi

theorem invList_isPerm {pi : List Nat} (h : IsPermList pi) : IsPermList (invList pi) := by
  constructor
  · intro x hx
    simp only [invList, List.mem_map, List.mem_range] at hx
    obtain ⟨j, hj, rfl⟩ := hx
    rw [invList_length]
    exact List.idxOf_lt_length_iff.mpr (h.mem hj)
  · rw [invList]
    refine (List.nodup_map_iff_inj_on List.nodup_range).mpr ?_
    intro a ha b hb e
    have e1 := getElem_idxOf' (h.mem (by simpa using ha : a < pi.length))
    have e2 := getElem_idxOf' (h.mem (by simpa using hb : b < pi.length))
    rw [e] at e1
    rw [e1] at e2
    simpa using e2

theorem gather_invList_self {pi : List Nat} (h : IsPermList pi) :
    gather (invList pi) pi = List.range pi.length := by
  symm
  apply gather_ext
  · intro x hx
    have := (invList_isPerm h).1 x hx
    rwa [invList_length] at this
  · simp [invList_length]
  · intro i hi
    have hi' : i < pi.length := by simpa [invList_length] using hi
    have e : (invList pi)[i] = pi.idxOf i := by simp [invList]
    rw [e, getElem_idxOf' (h.mem hi')]
    simp [hi']

theorem gather_self_invList {pi : List Nat} (h : IsPermList pi) :
    gather pi (invList pi) = List.range pi.length := by
  symm
  apply gather_ext
  · intro x hx; rw [invList_length]; exact h.1 x hx
  · simp
  · intro i hi
    rw [invList_getElem? (h.1 _ (List.getElem_mem hi)), idxOf_getElem' h.2 hi]
    simp [hi]

theorem gather_isPerm {a b : List Nat} (ha : IsPermList a) (hb : IsPermList b)
    (hl : a.length = b.length) : IsPermList (gather a b) := by
  have h1 : ∀ x ∈ a, x < b.length := by rw [← hl]; exact ha.1
  constructor
  · intro x hx
    rw [gather_length h1, hl]
    exact hb.1 x (mem_gather hx)
  · rw [List.nodup_iff_getElem?_ne_getElem?]
    intro i j hij hj
    rw [gather_length h1] at hj
    rw [gather_getElem? h1, gather_getElem? h1, List.getElem?_eq_getElem hj,
      List.getElem?_eq_getElem (show i < a.length by omega)]
    intro e
    simp only [Option.bind_some] at e
    rw [List.getElem?_eq_getElem (h1 _ (List.getElem_mem hj)),
      List.getElem?_eq_getElem (h1 _ (List.getElem_mem _))] at e
    have e' := (List.Nodup.getElem_inj_iff hb.2).mp (by simpa using e)
    have := (List.Nodup.getElem_inj_iff ha.2).mp e'
    omega

/-- Two lists that are inverse to `pi` on one side agree. -/
theorem gather_cancel {pi : List Nat} (h : IsPermList pi) {x : List α} (hx : x.length = pi.length) :
    gather (invList pi) (gather pi x) = x ∧ gather pi (gather (invList pi) x) = x := by
  have hi := invList_isPerm h
  constructor
  · rw [gather_gather (by intro i hi'; have := hi.1 i hi'; rwa [invList_length] at this)
      (by intro i hi'; rw [hx]; exact h.1 i hi'), gather_invList_self h, ← hx, gather_range]
  · rw [gather_gather (by intro i hi'; rw [invList_length]; exact h.1 i hi')
      (by intro i hi'; have := hi.1 i hi'; rw [invList_length] at this; omega),
      gather_self_invList h, ← hx, gather_range]

namespace Perm

theorem loop1_add (step : List α → Nat → Nat → Res (List α)) (a b i : Nat) (dst : List α) :
    loop1 step (a + b) i dst = (loop1 step a i dst >>= loop1 step b (i + a)) := by
  induction a generalizing i dst with
  | zero => simp [loop1]
  | succ a ih =>
    rw [show a + 1 + b = (a + b) + 1 by omega]
    simp only [loop1]
    cases step dst i i with
    | error e => rfl
    | ok d =>
      show loop1 step (a + b) (i + 1) d = (loop1 step a (i + 1) d >>= _)
      rw [ih, show i + 1 + a = i + (a + 1) by omega]

theorem block8_eq (step : List α → Nat → Nat → Res (List α)) (dst : List α) (i : Nat) :
    block8 step dst i i = loop1 step 8 i dst := by
  simp only [block8, loop1, Nat.add_zero, Nat.add_assoc, Nat.reduceAdd]
  cases step dst i i with
  | error e => rfl
  | ok d =>
  show (step d (i+1) (i+1) >>= _) = (step d (i+1) (i+1) >>= _)
  congr 1; funext d
  congr 1; funext d
  congr 1; funext d
  congr 1; funext d
  congr 1; funext d
  congr 1; funext d
  cases step d (i+7) (i+7) <;> rfl

theorem loop8_eq (step : List α → Nat → Nat → Res (List α)) (k i : Nat) (dst : List α) :
    loop8 step k i i dst = loop1 step (8 * k) i dst := by
  induction k generalizing i dst with
  | zero => rfl
  | succ k ih =>
    rw [show 8 * (k + 1) = 8 + 8 * k by omega, loop1_add]
    simp only [loop8, block8_eq]
    congr 1
    funext d
    exact ih (i + 8) d

theorem apply_eq_loop1 (p : Perm) (src dst : Mat α) (op : PermOp)
    (h1 : src.rows.length = p.size) (h2 : dst.rows.length = p.size) (h3 : src.cols = dst.cols) :
    p.apply src dst op =
      (loop1 (match op with
        | .regular => regStep p.pi src.rows
        | .inverse => invStep p.pi src.rows) p.size 0 dst.rows >>= fun d => .ok ⟨dst.cols, d⟩) := by
  have key : ∀ step : List α → Nat → Nat → Res (List α),
      (do
        let d ← loop8 step (p.size / 8) 0 0 dst.rows
        let d ← loop1 step (p.size - p.size / 8 * 8) (p.size / 8 * 8) d
        Except.ok (⟨dst.cols, d⟩ : Mat α)) =
      (loop1 step p.size 0 dst.rows >>= fun d => .ok ⟨dst.cols, d⟩) := by
    intro step
    conv => rhs; rw [show p.size = 8 * (p.size / 8) + (p.size - p.size / 8 * 8) by omega, loop1_add, bind_assoc]
    rw [loop8_eq]
    congr 1
    funext d
    rw [show 0 + 8 * (p.size / 8) = p.size / 8 * 8 by omega]
  cases op <;>
    simp only [apply, h1, h2, h3, bne_self_eq_false, throwIf_false, ok_bind] <;> exact key _

theorem loop1_reg {pi : List Nat} {src : List α} (k i : Nat) (dst : List α)
    (hb : ∀ x ∈ pi, x < src.length) (hd : dst.length = pi.length) (hk : i + k ≤ pi.length) :
    ∃ out, loop1 (regStep pi src) k i dst = .ok out ∧ out.length = pi.length ∧
      ∀ j, out[j]? = if i ≤ j ∧ j < i + k then pi[j]?.bind (src[·]?) else dst[j]? := by
  induction k generalizing i dst with
  | zero => refine ⟨dst, rfl, hd, fun j => ?_⟩; rw [if_neg (by omega)]
  | succ k ih =>
    have hi : i < pi.length := by omega
    have hp : pi[i] < src.length := hb _ (List.getElem_mem hi)
    have hs : regStep pi src dst i i = .ok (dst.set i src[pi[i]]) := by
      simp only [regStep, rd_ok hi]
      show (rd src pi[i] >>= _) = _
      simp only [rd_ok hp]
      show wr dst i src[pi[i]] = _
      rw [wr_ok (by omega)]
    obtain ⟨out, ho, hl, hj⟩ := ih (i + 1) (dst.set i src[pi[i]]) (by simpa using hd) (by omega)
    refine ⟨out, ?_, hl, fun j => ?_⟩
    · simp only [loop1, hs]; exact ho
    · rw [hj]
      by_cases h1 : i + 1 ≤ j ∧ j < i + 1 + k
      · rw [if_pos h1, if_pos (by omega)]
      · rw [if_neg h1]
        by_cases h2 : j = i
        · subst h2
          rw [if_pos (by omega), List.getElem?_set_self (by omega), List.getElem?_eq_getElem hi]
          simp [List.getElem?_eq_getElem hp]
        · rw [if_neg (by omega), List.getElem?_set_ne (by omega)]

theorem loop1_inv {pi : List Nat} {src : List α} (k i : Nat) (dst : List α)
    (hb : IsPermList pi) (hsrc : src.length = pi.length) (hd : dst.length = pi.length)
    (hk : i + k ≤ pi.length) :
    ∃ out, loop1 (invStep pi src) k i dst = .ok out ∧ out.length = pi.length ∧
      ∀ j, j < pi.length → out[pi[j]!]? = if i ≤ j ∧ j < i + k then src[j]? else dst[pi[j]!]? := by
  induction k generalizing i dst with
  | zero => refine ⟨dst, rfl, hd, fun j _ => ?_⟩; rw [if_neg (by omega)]
  | succ k ih =>
    have hi : i < pi.length := by omega
    have hi' : i < src.length := by omega
    have hp : pi[i] < pi.length := hb.1 _ (List.getElem_mem hi)
    have hs : invStep pi src dst i i = .ok (dst.set pi[i] src[i]) := by
      simp only [invStep, rd_ok hi]
      show (rd src i >>= _) = _
      simp only [rd_ok hi']
      show wr dst pi[i] src[i] = _
      rw [wr_ok (by omega)]
    obtain ⟨out, ho, hl, hj⟩ := ih (i + 1) (dst.set pi[i] src[i]) (by simpa using hd) (by omega)
    refine ⟨out, ?_, hl, fun j hjl => ?_⟩
    · simp only [loop1, hs]; exact ho
    · rw [hj j hjl]
      by_cases h1 : i + 1 ≤ j ∧ j < i + 1 + k
      · rw [if_pos h1, if_pos (by omega)]
      · rw [if_neg h1]
        simp only [getElem!_pos pi j hjl]
        by_cases h2 : j = i
        · subst h2
          rw [if_pos (by omega), List.getElem?_set_self (by omega), List.getElem?_eq_getElem hi']
        · rw [if_neg (by omega), List.getElem?_set_ne]
          intro e
          have := (List.Nodup.getElem_inj_iff hb.2).mp e
          omega

theorem apply_regular_eq {p : Perm} {src dst : Mat α} (hb : ∀ x ∈ p.pi, x < p.pi.length)
    (h1 : src.rows.length = p.size) (h2 : dst.rows.length = p.size) (h3 : src.cols = dst.cols) :
    p.apply src dst .regular = .ok ⟨src.cols, gather p.pi src.rows⟩ := by
  rw [apply_eq_loop1 p src dst .regular h1 h2 h3]
  have hs : ∀ x ∈ p.pi, x < src.rows.length := by rw [h1]; exact hb
  obtain ⟨out, ho, hl, hj⟩ := loop1_reg (pi := p.pi) (src := src.rows) p.size 0 dst.rows hs
    h2 (by simp [size])
  have : out = gather p.pi src.rows := by
    apply gather_ext hs hl
    intro i hi
    rw [hj i, if_pos (by simp [size]; exact hi), List.getElem?_eq_getElem hi]; rfl
  subst this
  show (loop1 (regStep p.pi src.rows) p.size 0 dst.rows >>= _) = _
  rw [ho, h3]; rfl

theorem apply_inverse_eq {p : Perm} {src dst : Mat α} (hb : IsPermList p.pi)
    (h1 : src.rows.length = p.size) (h2 : dst.rows.length = p.size) (h3 : src.cols = dst.cols) :
    p.apply src dst .inverse = .ok ⟨src.cols, gather (invList p.pi) src.rows⟩ := by
  rw [apply_eq_loop1 p src dst .inverse h1 h2 h3]
  obtain ⟨out, ho, hl, hj⟩ := loop1_inv (pi := p.pi) (src := src.rows) p.size 0 dst.rows hb h1
    h2 (by simp [size])
  have : out = gather (invList p.pi) src.rows := by
    apply gather_ext
    · intro x hx
      have := (invList_isPerm hb).1 x hx
      rw [invList_length] at this
      rw [h1]; exact this
    · rw [invList_length]; exact hl
    · intro i hi
      have hi' : i < p.pi.length := by simpa [invList_length] using hi
      have hm := hb.mem hi'
      have hidx := List.idxOf_lt_length_iff.mpr hm
      have := hj (p.pi.idxOf i) hidx
      rw [if_pos (by simpa [size] using hidx), getElem!_pos p.pi _ hidx] at this
      simp only [List.getElem_idxOf hidx] at this
      rw [this]
      simp [invList]
  subst this
  show (loop1 (invStep p.pi src.rows) p.size 0 dst.rows >>= _) = _
  rw [ho, h3]; rfl

theorem inverseLoop_eq_loop1 (pi : List Nat) (n k i : Nat) (r : List Nat) (h : i + k ≤ n) :
    inverseLoop pi k i r = loop1 (invStep pi (List.range n)) k i r := by
  induction k generalizing i r with
  | zero => rfl
  | succ k ih =>
    have hr : rd (List.range n) i = .ok i := by
      rw [rd_ok (by simp; omega)]; simp
    simp only [inverseLoop, loop1, invStep, hr, bind_assoc]
    congr 1; funext p
    show (wr r p i >>= _) = (wr r p i >>= _)
    congr 1; funext r
    exact ih (i + 1) r (by omega)

theorem inverse_eq {p : Perm} (hb : IsPermList p.pi) : p.inverse = .ok ⟨invList p.pi⟩ := by
  have h := apply_inverse_eq (p := p) (src := ⟨1, List.range p.size⟩)
    (dst := ⟨1, List.replicate p.size 0⟩) hb (by simp) (by simp) rfl
  rw [apply_eq_loop1 p ⟨1, List.range p.size⟩ ⟨1, List.replicate p.size 0⟩ .inverse (by simp) (by simp) rfl] at h
  simp only [inverse]
  rw [inverseLoop_eq_loop1 p.pi p.size p.size 0 _ (by omega)]
  simp only [] at h
  cases hl : loop1 (invStep p.pi (List.range p.size)) p.size 0 (List.replicate p.size 0) with
  | error e => rw [hl] at h; cases h
  | ok d =>
    rw [hl] at h
    have hd : d = gather (invList p.pi) (List.range p.size) := by
      have := congrArg (fun r => match r with | Except.ok (m : Mat Nat) => m.rows | .error _ => []) h
      exact this
    have hg : gather (invList p.pi) (List.range p.size) = invList p.pi := by
      symm
      apply gather_ext
      · intro x hx
        have := (invList_isPerm hb).1 x hx
        simpa [invList_length, size] using this
      · rfl
      · intro i hi
        have := (invList_isPerm hb).1 _ (List.getElem_mem hi)
        rw [invList_length] at this
        rw [List.getElem?_eq_getElem hi, List.getElem?_eq_getElem (by simpa [size] using this)]
        simp
    rw [hd, hg]; rfl

theorem applyVec_regular_eq {p : Perm} {z : α} {src : List α} (hb : ∀ x ∈ p.pi, x < p.pi.length)
    (h1 : src.length = p.size) : p.applyVec z src .regular = .ok (gather p.pi src) := by
  rw [applyVec, apply_regular_eq (src := ⟨1, src⟩) (dst := ⟨1, List.replicate p.size z⟩) hb h1 (by simp) rfl]; rfl

theorem applyVec_inverse_eq {p : Perm} {z : α} {src : List α} (hb : IsPermList p.pi)
    (h1 : src.length = p.size) :
    p.applyVec z src .inverse = .ok (gather (invList p.pi) src) := by
  rw [applyVec, apply_inverse_eq (src := ⟨1, src⟩) (dst := ⟨1, List.replicate p.size z⟩) hb h1 (by simp) rfl]; rfl

theorem compose_eq {p q : Perm} (hb : ∀ x ∈ p.pi, x < p.pi.length) (h : q.size = p.size) :
    p.compose q = .ok ⟨gather p.pi q.pi⟩ := by
  rw [compose, applyVec_regular_eq hb h]; rfl

theorem swap_perm {l : List Nat} {i j : Nat} (hi : i < l.length) (hj : j < l.length) :
    ∃ l', swap l i j = .ok l' ∧ l'.Perm l := by
  refine ⟨(l.set i l[j]).set j l[i], ?_, ?_⟩
  · simp only [swap, rd_ok hi]
    show (rd l j >>= _) = _
    simp only [rd_ok hj]
    show (wr l i l[j] >>= _) = _
    rw [wr_ok hi]
    show wr (l.set i l[j]) j l[i] = _
    rw [wr_ok (by simpa using hj)]
  · exact List.set_set_perm hi hj

theorem randomizeLoop_perm (draw : Nat → Nat) (n k : Nat) (hk : k ≤ n) (l : List Nat)
    (hl : l.length = n) : ∃ l', randomizeLoop draw n k l = .ok l' ∧ l'.Perm l := by
  induction k generalizing l with
  | zero => exact ⟨l, rfl, List.Perm.refl _⟩
  | succ k ih =>
    have hlt : draw (n - (k + 1)) % (n - (n - (k + 1))) < n - (n - (k + 1)) :=
      Nat.mod_lt _ (by omega)
    obtain ⟨l1, h1, p1⟩ := swap_perm (l := l) (i := n - (k + 1))
      (j := draw (n - (k + 1)) % (n - (n - (k + 1))) + (n - (k + 1))) (by omega) (by omega)
    obtain ⟨l2, h2, p2⟩ := ih (by omega) l1 (by rw [p1.length_eq, hl])
    refine ⟨l2, ?_, p2.trans p1⟩
    simp only [randomizeLoop, h1]
    exact h2

/-- What the loop of `validate` accepts from index `i`. -/
theorem validateLoop_spec (pi : List Nat) (k i : Nat) (v : List Nat) (hv : v.length = pi.length)
    (hk : i + k = pi.length) :
    (validateLoop pi pi.length k i v = .ok () ∧
      ((∀ j, i ≤ j → (h : j < pi.length) → pi[j] < pi.length ∧ v[pi[j]]? = some 0) ∧
        (pi.drop i).Nodup)) ∨
    (validateLoop pi pi.length k i v = .error .throw ∧
      ¬ ((∀ j, i ≤ j → (h : j < pi.length) → pi[j] < pi.length ∧ v[pi[j]]? = some 0) ∧
        (pi.drop i).Nodup)) := by
  induction k generalizing i v with
  | zero =>
    left
    refine ⟨rfl, fun j h1 h2 => by omega, ?_⟩
    rw [List.drop_of_length_le (by omega)]; simp
  | succ k ih =>
    have hi : i < pi.length := by omega
    have hdrop : pi.drop i = pi[i] :: pi.drop (i + 1) := List.drop_eq_getElem_cons hi
    simp only [validateLoop, rd_ok hi]
    show ((throwIf (decide (pi[i] ≥ pi.length)) >>= _) = _ ∧ _) ∨ ((throwIf _ >>= _) = _ ∧ _)
    by_cases hp : pi[i] < pi.length
    · have e1 : throwIf (decide (pi[i] ≥ pi.length)) = .ok () := by simp [throwIf]; omega
      have e2 : rd v pi[i] = .ok v[pi[i]] := rd_ok (by omega)
      rw [e1]
      show ((rd v pi[i] >>= _) = _ ∧ _) ∨ ((rd v pi[i] >>= _) = _ ∧ _)
      rw [e2]
      show ((throwIf (v[pi[i]] != 0) >>= _) = _ ∧ _) ∨ ((throwIf (v[pi[i]] != 0) >>= _) = _ ∧ _)
      by_cases h0 : v[pi[i]] = 0
      · have e3 : throwIf (v[pi[i]] != 0) = .ok () := by simp [throwIf, h0]
        rw [e3]
        show ((wr v pi[i] 1 >>= _) = _ ∧ _) ∨ ((wr v pi[i] 1 >>= _) = _ ∧ _)
        rw [wr_ok (by omega)]
        have key : ((∀ j, i + 1 ≤ j → (h : j < pi.length) → pi[j] < pi.length ∧ (v.set pi[i] 1)[pi[j]]? = some 0) ∧ (pi.drop (i+1)).Nodup) ↔
            ((∀ j, i ≤ j → (h : j < pi.length) → pi[j] < pi.length ∧ v[pi[j]]? = some 0) ∧ (pi.drop i).Nodup) := by
          constructor
          · rintro ⟨ha, hn⟩
            refine ⟨fun j h1 h2 => ?_, ?_⟩
            · by_cases hji : j = i
              · subst hji; exact ⟨hp, by rw [List.getElem?_eq_getElem (by omega), h0]⟩
              · obtain ⟨q1, q2⟩ := ha j (by omega) h2
                refine ⟨q1, ?_⟩
                by_cases hc : pi[i] = pi[j]
                · rw [← hc, List.getElem?_set_self (by omega)] at q2; simp at q2
                · rwa [List.getElem?_set_ne hc] at q2
            · rw [hdrop, List.nodup_cons]
              refine ⟨?_, hn⟩
              intro hm
              obtain ⟨m, hm1, hm2⟩ := List.getElem_of_mem hm
              rw [List.getElem_drop] at hm2
              have hm1' : i + 1 + m < pi.length := by simp at hm1; omega
              obtain ⟨q1, q2⟩ := ha (i + 1 + m) (by omega) hm1'
              rw [hm2, List.getElem?_set_self (by omega)] at q2
              simp at q2
          · rintro ⟨ha, hn⟩
            rw [hdrop, List.nodup_cons] at hn
            refine ⟨fun j h1 h2 => ?_, hn.2⟩
            obtain ⟨q1, q2⟩ := ha j (by omega) h2
            refine ⟨q1, ?_⟩
            have hc : pi[i] ≠ pi[j] := by
              intro hc
              apply hn.1
              rw [hc]
              exact List.mem_drop_iff_getElem.mpr ⟨j - (i + 1), by omega, by congr 1; omega⟩
            rwa [List.getElem?_set_ne hc]
        rcases ih (i + 1) (v.set pi[i] 1) (by simpa using hv) (by omega) with h | h
        · left; exact ⟨h.1, key.mp h.2⟩
        · right; exact ⟨h.1, fun hc => h.2 (key.mpr hc)⟩
      · right
        have e3 : throwIf (v[pi[i]] != 0) = .error .throw := by simp [throwIf, h0]
        rw [e3]
        refine ⟨rfl, fun hc => ?_⟩
        have := (hc.1 i (by omega) hi).2
        rw [List.getElem?_eq_getElem (by omega)] at this
        exact h0 (by simpa using this)
    · right
      have e1 : throwIf (decide (pi[i] ≥ pi.length)) = .error .throw := by simp [throwIf]; omega
      rw [e1]
      refine ⟨rfl, fun hc => hp (hc.1 i (by omega) hi).1⟩

theorem validate_iff (p : Perm) :
    (p.validate = .ok () ∧ IsPermList p.pi) ∨ (p.validate = .error .throw ∧ ¬ IsPermList p.pi) := by
  have h := validateLoop_spec p.pi p.pi.length 0 (List.replicate p.pi.length 0) (by simp) (by omega)
  have key : ((∀ j, 0 ≤ j → (h : j < p.pi.length) → p.pi[j] < p.pi.length ∧ (List.replicate p.pi.length 0)[p.pi[j]]? = some 0) ∧ (p.pi.drop 0).Nodup) ↔ IsPermList p.pi := by
    constructor
    · rintro ⟨a, b⟩
      refine ⟨fun x hx => ?_, by simpa using b⟩
      obtain ⟨j, hj, rfl⟩ := List.getElem_of_mem hx
      exact (a j (by omega) hj).1
    · rintro ⟨a, b⟩
      refine ⟨fun j _ hj => ?_, by simpa using b⟩
      have := a _ (List.getElem_mem hj)
      exact ⟨this, by simp [this]⟩
  rcases h with h | h
  · left; exact ⟨h.1, key.mp h.2⟩
  · right; exact ⟨h.1, fun hc => h.2 (key.mpr hc)⟩

end Perm
end SecJoin
