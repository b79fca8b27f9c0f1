import Verif.Hiding.Perm
import Verif.TableOps.ExtractProps
import Mathlib.Logic.ExistsUnique
/-!
# C83: what is opened about permutations and flags
-/
namespace SecJoin

/-! ## Permutations as lists -/

theorem getD_gather {τ x : List Nat} (h : ∀ i ∈ τ, i < x.length) {i : Nat} (hi : i < τ.length) :
    (gather τ x).getD i 0 = x.getD (τ.getD i 0) 0 := by
  have := gather_getElem? h i
  rw [List.getD_eq_getElem?_getD, this, List.getD_eq_getElem?_getD, List.getD_eq_getElem?_getD, List.getElem?_eq_getElem hi]
  rfl

theorem list_ext_getD {x y : List Nat} {n : Nat} (hx : x.length = n) (hy : y.length = n) (h : ∀ i < n, x.getD i 0 = y.getD i 0) : x = y := by
  apply List.ext_getElem (by omega)
  intro i h1 h2
  have := h i (by omega)
  simpa only [List.getD_eq_getElem?_getD, List.getElem?_eq_getElem h1, List.getElem?_eq_getElem h2, Option.getD_some] using this

/-- A permutation of `0, .., n-1` as the list of its values. -/
def PermOf (n : Nat) (π : List Nat) : Prop := IsBijection π ∧ π.length = n

theorem permOf_iff {n : Nat} {π : List Nat} : PermOf n π ↔ IsPermList π ∧ π.length = n := by unfold PermOf; rw [isBijection_iff]

/-- Composition with `τ` is a bijection of the permutations. -/
theorem compose_bij {n : Nat} {τ : List Nat} (hτ : PermOf n τ) : ∀ π, PermOf n π → PermOf n (gather π τ) ∧
    ∃! π', PermOf n π' ∧ gather π' τ = π := by
  rw [permOf_iff] at hτ
  obtain ⟨ht, hl⟩ := hτ
  intro π hπ
  rw [permOf_iff] at hπ
  obtain ⟨hp, hpl⟩ := hπ
  have hi := invList_isPerm ht
  have hil : (invList τ).length = n := by rw [invList_length, hl]
  have b1 : ∀ ρ, IsPermList ρ → ρ.length = n → ∀ i ∈ ρ, i < n := fun ρ h e i hh => by have := h.1 i hh; omega
  refine ⟨permOf_iff.2 ⟨gather_isPerm hp ht (by omega), by rw [gather_length (by rw [hl]; exact b1 π hp hpl), hpl]⟩, ?_⟩
  refine ⟨gather π (invList τ), ⟨permOf_iff.2 ⟨gather_isPerm hp hi (by omega), ?_⟩, ?_⟩, ?_⟩
  · rw [gather_length (by rw [hil]; exact b1 π hp hpl), hpl]
  · rw [← gather_gather (by rw [hil]; exact b1 π hp hpl) (by rw [hl]; exact b1 _ hi hil), gather_invList_self ht, hl, ]
    symm
    apply gather_ext (by simpa using b1 π hp hpl) rfl
    intro i h
    have := b1 π hp hpl _ (List.getElem_mem h)
    rw [List.getElem?_range this, List.getElem?_eq_getElem h]
  · rintro π' ⟨hπ', rfl⟩
    rw [permOf_iff] at hπ'
    have hb := b1 π' hπ'.1 hπ'.2
    rw [← gather_gather (by rw [hl]; exact hb) (by rw [hil]; exact b1 _ ht hl), gather_self_invList ht, hl]
    apply gather_ext (by simpa using hb) rfl
    intro i h
    have := hb _ (List.getElem_mem h)
    rw [List.getElem?_range this, List.getElem?_eq_getElem h]

/-- `o ∘ π = q` has exactly one solution `π`. -/
theorem solve_right {n : Nat} {o q : List Nat} (ho : PermOf n o) (hq : PermOf n q) :
    ∃! π, PermOf n π ∧ ∀ i < n, o.getD (π.getD i 0) 0 = q.getD i 0 := by
  obtain ⟨-, π, ⟨h1, h2⟩, u⟩ := compose_bij ho q hq
  have e : ∀ π, PermOf n π → ((∀ i < n, o.getD (π.getD i 0) 0 = q.getD i 0) ↔ gather π o = q) := by
    intro π hπ
    have hb : ∀ i ∈ π, i < o.length := fun i hi => by have := (permOf_iff.1 hπ).1.1 i hi; rw [hπ.2] at this; rw [ho.2]; exact this
    constructor
    · intro h
      apply list_ext_getD (n := n) (by rw [gather_length hb, hπ.2]) hq.2
      intro i hi
      rw [getD_gather hb (by rw [hπ.2]; exact hi)]
      exact h i hi
    · intro h i hi
      rw [← h, getD_gather hb (by rw [hπ.2]; exact hi)]
  exact ⟨π, ⟨h1, (e π h1).2 h2⟩, fun π' h => u π' ⟨h.1, (e π' h.1).1 h.2⟩⟩

/-! ## Flags with equally many ones -/

/-- The positions of the zeros and then those of the ones. -/
def arrange (g : List Bool) : List Nat :=
  ((List.range g.length).filter fun i => !g.getD i false) ++ ((List.range g.length).filter fun i => g.getD i false)

theorem arrange_perm (g : List Bool) : IsPermList (arrange g) ∧ (arrange g).length = g.length := by
  have hp : (arrange g).Perm (List.range g.length) := by
    have := List.filter_append_perm (fun i => g.getD i false) (List.range g.length)
    exact (List.perm_append_comm).trans this
  have hl := hp.length_eq
  rw [List.length_range] at hl
  exact ⟨by rw [isPermList_iff_perm, hl]; exact hp, hl⟩

theorem gather_const {l : List Nat} {g : List Bool} {b : Bool} (h : ∀ i ∈ l, i < g.length ∧ g.getD i false = b) :
    gather l g = List.replicate l.length b := by
  have hb : ∀ i ∈ l, i < g.length := fun i hi => (h i hi).1
  rw [List.eq_replicate_iff]
  refine ⟨gather_length hb, fun x hx => ?_⟩
  obtain ⟨i, hi, e⟩ := List.mem_filterMap.1 hx
  have := (h i hi).2
  rw [List.getD_eq_getElem?_getD, e] at this
  exact this

theorem filter_count (g : List Bool) (b : Bool) : ((List.range g.length).filter fun i => g.getD i false == b).length = g.count b := by
  have e : g = (List.range g.length).map fun i => g.getD i false := by
    apply List.ext_getElem (by simp)
    intro i h1 h2
    simp [h1]
  conv_rhs => rw [e]
  rw [List.count, List.countP_map, List.countP_eq_length_filter]
  rfl

theorem gather_arrange (g : List Bool) : gather (arrange g) g = List.replicate (g.count false) false ++ List.replicate (g.count true) true := by
  have e1 : ((List.range g.length).filter fun i => !g.getD i false) = (List.range g.length).filter fun i => g.getD i false == false := by
    congr 1; funext i; cases g.getD i false <;> rfl
  have e2 : ((List.range g.length).filter fun i => g.getD i false) = (List.range g.length).filter fun i => g.getD i false == true := by
    congr 1; funext i; cases g.getD i false <;> rfl
  unfold arrange
  rw [e1, e2]
  have app : ∀ (a b : List Nat), gather (a ++ b) g = gather a g ++ gather b g := fun a b => by simp [gather]
  rw [app, gather_const (b := false), gather_const (b := true), filter_count, filter_count]
  all_goals
    intro i hi
    rw [List.mem_filter] at hi
    exact ⟨List.mem_range.1 hi.1, by simpa using hi.2⟩

/-- Flags with equally many ones are rearrangements of each other. -/
theorem rearrange {n : Nat} {g g' : List Bool} (hg : g.length = n) (hg' : g'.length = n) (hc : g.count true = g'.count true) :
    ∃ τ, PermOf n τ ∧ gather τ g' = g := by
  have hc' : g.count false = g'.count false := by
    have e : ∀ l : List Bool, l.count true + l.count false = l.length := fun l => by
      induction l with
      | nil => rfl
      | cons b l ih => cases b <;> simp [List.count_cons] <;> omega
    have := e g
    have := e g'
    omega
  obtain ⟨a1, a2⟩ := arrange_perm g
  obtain ⟨b1, b2⟩ := arrange_perm g'
  have hi := invList_isPerm a1
  have hil : (invList (arrange g)).length = n := by rw [invList_length, a2, hg]
  refine ⟨gather (invList (arrange g)) (arrange g'), permOf_iff.2 ⟨gather_isPerm hi b1 (by omega), ?_⟩, ?_⟩
  · rw [gather_length (by intro i h; have := hi.1 i h; omega), hil]
  · rw [← gather_gather (by intro i h; have := hi.1 i h; omega) (by intro i h; have := b1.1 i h; omega), gather_arrange, ← hc, ← hc',
      ← gather_arrange]
    exact (gather_cancel a1 a2.symm).1

/-- What `gather τ g' = g` says, entry by entry. -/
theorem rearrange_at {n : Nat} {τ : List Nat} {g g' : List Bool} (hτ : PermOf n τ) (hg' : g'.length = n) (h : gather τ g' = g) {i : Nat}
    (hi : i < n) : g'.getD (τ.getD i 0) false = g.getD i false := by
  have hb : ∀ i ∈ τ, i < g'.length := fun i hi => by have := (permOf_iff.1 hτ).1.1 i hi; rw [hτ.2] at this; omega
  have := gather_getElem? hb i
  rw [← h]
  simp only [List.getD_eq_getElem?_getD]
  rw [this, List.getElem?_eq_getElem (l := τ) (by rw [hτ.2]; exact hi)]
  rfl

/-! ## Removing rows -/

namespace Extract

/-- The removal is what follows from the opened flags. -/
theorem opened_apply (n : Nat) (p0 p1 : ComposedPerm) (f0 f1 : List Byte) (in0 in1 : List BinMatrix) (outs : Nat) :
    applyMat n p0 p1 f0 f1 in0 in1 outs = (do
      let (y0, y1, flags) ← opened n p0 p1 f0 f1 in0 in1 outs
      let o0 ← collect flags in0 y0
      let o1 ← collect flags in1 y1
      .ok (o0, o1)) := by
  unfold applyMat opened
  cases prepare n f0 in0 outs with
  | error e => rfl
  | ok x0 =>
    cases prepare n f1 in1 outs with
    | error e => rfl
    | ok x1 =>
      simp only [ok_bind]
      cases ComposedPerm.applyBoth p0 p1 .regular x0 x1 with
      | error e => rfl
      | ok y => rfl

/-- The shared flag of row `i`. -/
def flagAt (f0 f1 : List Byte) (i : Nat) : Bool := (f0.getD i 0 ^^^ f1.getD i 0).getLsbD 0

/-- The opened flags: that of row `π0(π1(i))` at place `i`. -/
theorem opened_ok {n W0 o0 W1 o1 : Nat} {p0 p1 : ComposedPerm} (hv : ValidComposed n W0 o0 W1 o1 p0 p1) (hn : 0 < n)
    {f0 f1 : List Byte} (hf0 : f0.length = n) (hf1 : f1.length = n) {in0 in1 : List BinMatrix} (h0 : ∀ m ∈ in0, MatOk n m)
    (h1 : ∀ m ∈ in1, MatOk n m) (hb : in0.map (·.bits) = in1.map (·.bits))
    (b0 : o0 + 1 + (in0.map fun m => divCeil m.bits 8).sum ≤ W0) (b1 : o1 + 1 + (in0.map fun m => divCeil m.bits 8).sum ≤ W1) :
    ∃ y0 y1, opened n p0 p1 f0 f1 in0 in1 in0.length = .ok (y0, y1,
      (List.range n).map fun i => flagAt f0 f1 (p0.snd.perm.pi.getD (p1.snd.perm.pi.getD i 0) 0)) := by
  have hlen : in1.length = in0.length := by simpa using (congrArg List.length hb).symm
  obtain ⟨ss, hss⟩ : ∃ ss, ss = in0.map fun m => divCeil m.bits 8 := ⟨_, rfl⟩
  have hss1 : (in1.map fun m => divCeil m.bits 8) = ss := by
    have := congrArg (List.map fun b => divCeil b 8) hb
    rw [List.map_map, List.map_map] at this
    rw [hss]
    exact this.symm
  have e0 := prepare_ok hf0 h0
  have e1 := prepare_ok hf1 h1
  rw [hss1, hlen] at e1
  rw [← hss] at e0 b0 b1
  obtain ⟨X, hX⟩ : ∃ X : List Byte → List BinMatrix → List Row, X = fun f ms => (List.range n).map fun i => f.getD i 0 :: (at_ ms i).flatten :=
    ⟨_, rfl⟩
  have shape : ∀ f ms, (∀ m ∈ ms, MatOk n m) → (ms.map fun m => divCeil m.bits 8) = ss → Shape n (1 + ss.sum) (X f ms) := by
    intro f ms hms hs
    refine ⟨by rw [hX]; simp, ?_⟩
    intro r hr
    rw [hX] at hr
    obtain ⟨i, hi, rfl⟩ := List.mem_map.1 hr
    rw [List.length_cons, List.length_flatten, at_length hms (List.mem_range.1 hi), hs]
    omega
  have s0 := shape f0 in0 h0 hss.symm
  have s1 := shape f1 in1 h1 hss1
  have hi := validComposed_iff.mp hv
  obtain ⟨c0', c1', y0, y1, e, -, -, -, t0, t1, hx⟩ := composed_applyBoth_ok hi hn (op := .regular)
    (x0 := ⟨1 + ss.sum, X f0 in0⟩) (x1 := ⟨1 + ss.sum, X f1 in1⟩) s0 s1 rfl (by simp only; omega) (by simp only; omega)
  rw [← sharedPerm_eq hi] at hx
  obtain ⟨hπ, hπl, -⟩ := C07_shared_bijection hv
  have hπ' := (isBijection_iff _).mp hπ
  simp only at t0 t1 hx
  refine ⟨y0, y1, ?_⟩
  unfold opened
  rw [hX] at e
  simp only [e0, e1, ok_bind, e]
  congr 3
  apply List.map_congr_left
  intro i hi'
  have hi' := List.mem_range.1 hi'
  have lp1 : p1.snd.perm.pi.length = n := hi.cor1.len
  have hpi : (sharedPerm p0 p1).getD i 0 = p0.snd.perm.pi.getD (p1.snd.perm.pi.getD i 0) 0 := by
    unfold sharedPerm
    have : i < p1.snd.perm.pi.length := by omega
    simp only [List.getD_eq_getElem?_getD, List.getElem?_map, List.getElem?_eq_getElem this, Option.map_some, Option.getD_some]
  rw [← hpi]
  have hl := (xm_shape s0 s1).1
  have hii : i < (sharedPerm p0 p1).length := by omega
  have hlt : (sharedPerm p0 p1)[i] < n := lt_of_lt_of_eq (hπ'.1 _ (List.getElem_mem hii)) hπl
  have this := congrArg (fun l => l[i]?) hx
  simp only [permRows] at this
  rw [gather_getElem? (by rw [hl, ← hπl]; exact hπ'.1), List.getElem?_eq_getElem hii] at this
  have hg : (sharedPerm p0 p1).getD i 0 = (sharedPerm p0 p1)[i] := by
    rw [List.getD_eq_getElem?_getD, List.getElem?_eq_getElem hii]; rfl
  have a0 : i < y0.length := by rw [t0.1]; exact hi'
  have a1 : i < y1.length := by rw [t1.1]; exact hi'
  have c0 : (sharedPerm p0 p1)[i] < (X f0 in0).length := by rw [s0.1]; exact hlt
  have c1 : (sharedPerm p0 p1)[i] < (X f1 in1).length := by rw [s1.1]; exact hlt
  simp only [xm, List.getElem?_zipWith, List.getElem?_eq_getElem a0, List.getElem?_eq_getElem a1, Option.bind_some,
    List.getElem?_eq_getElem c0, List.getElem?_eq_getElem c1, Option.some.injEq] at this
  have l0 : 0 < y0[i].length := by rw [t0.2 _ (List.getElem_mem a0)]; omega
  have l1 : 0 < y1[i].length := by rw [t1.2 _ (List.getElem_mem a1)]; omega
  have hh := congrArg (fun r => r.getD 0 0) this
  simp only [hX, List.getElem_map, List.getElem_range, xorRow, List.zipWith_cons_cons, List.getD_cons_zero] at hh
  rw [hg]
  unfold flagAt
  rw [← hh, List.getD_eq_getElem?_getD (l := List.zipWith _ _ _), List.getElem?_zipWith]
  simp only [List.getD_eq_getElem?_getD, List.getElem?_eq_getElem a0, List.getElem?_eq_getElem a1, Option.getD_some,
    List.getElem?_eq_getElem l0, List.getElem?_eq_getElem l1, BitVec.getLsbD_xor]

/-- The number of active rows. -/
def numActive (n : Nat) (f0 f1 : List Byte) : Nat := ((List.range n).map (flagAt f0 f1)).count true

/-- C83, removal of rows, as seen by the party of index 0: it knows its own permutation `π0`, the permutation `π1` of the other party is
secret. For tables with equally many active rows there is a bijection of the secret permutations such that the same flags are opened for
corresponding permutations. -/
theorem C83_extract0 {n : Nat} (hn : 0 < n) {π0 : List Nat} (hπ0 : PermOf n π0) {f0 f1 g0 g1 : List Byte}
    (hf0 : f0.length = n) (hf1 : f1.length = n) (hg0 : g0.length = n) (hg1 : g1.length = n) (hc : numActive n f0 f1 = numActive n g0 g1) :
    ∃ φ : List Nat → List Nat, (∀ π, PermOf n π → PermOf n (φ π) ∧ ∃! π', PermOf n π' ∧ φ π' = π) ∧
      ∀ {W0 o0 W1 o1 : Nat} {p0 p1 q0 q1 : ComposedPerm}, ValidComposed n W0 o0 W1 o1 p0 p1 → ValidComposed n W0 o0 W1 o1 q0 q1 →
      p0.snd.perm.pi = π0 → q0.snd.perm.pi = π0 → q1.snd.perm.pi = φ p1.snd.perm.pi →
      ∀ {in0 in1 jn0 jn1 : List BinMatrix}, (∀ m ∈ in0 ++ in1 ++ jn0 ++ jn1, MatOk n m) → in0.map (·.bits) = in1.map (·.bits) →
      jn0.map (·.bits) = in0.map (·.bits) → jn1.map (·.bits) = in0.map (·.bits) →
      o0 + 1 + (in0.map fun m => divCeil m.bits 8).sum ≤ W0 → o1 + 1 + (in0.map fun m => divCeil m.bits 8).sum ≤ W1 →
      ∃ y0 y1 z0 z1 v, opened n p0 p1 f0 f1 in0 in1 in0.length = .ok (y0, y1, v) ∧
        opened n q0 q1 g0 g1 jn0 jn1 jn0.length = .ok (z0, z1, v) := by
  obtain ⟨G, hG⟩ : ∃ G : List Byte → List Byte → List Bool, G = fun f0 f1 => (List.range n).map fun i => flagAt f0 f1 (π0.getD i 0) := ⟨_, rfl⟩
  have hp0 := permOf_iff.1 hπ0
  have cnt : ∀ a b, (G a b).count true = numActive n a b := by
    intro a b
    have e : G a b = π0.map (flagAt a b) := by
      rw [hG]
      apply List.ext_getElem (by simp [hp0.2])
      intro i h1 h2
      have : i < π0.length := by simpa using h2
      simp [this]
    rw [e]
    have := (isPermList_iff_perm.1 hp0.1).map (flagAt a b)
    rw [hp0.2] at this
    exact this.count_eq true
  obtain ⟨τ, hτ, e⟩ := rearrange (n := n) (g := G f0 f1) (g' := G g0 g1) (by rw [hG]; simp) (by rw [hG]; simp) (by rw [cnt, cnt, hc])
  refine ⟨fun π => gather π τ, compose_bij hτ, ?_⟩
  intro W0 o0 W1 o1 p0 p1 q0 q1 hv hw e0 e0' e1 in0 in1 jn0 jn1 hm hb hb0 hb1 w0 w1
  have hs : (jn0.map fun m => divCeil m.bits 8) = in0.map fun m => divCeil m.bits 8 := by
    have := congrArg (List.map fun b => divCeil b 8) hb0
    rw [List.map_map, List.map_map] at this
    exact this
  obtain ⟨y0, y1, ey⟩ := opened_ok hv hn hf0 hf1 (in0 := in0) (in1 := in1) (fun m h => hm m (by simp [h])) (fun m h => hm m (by simp [h])) hb w0 w1
  obtain ⟨z0, z1, ez⟩ := opened_ok hw hn hg0 hg1 (in0 := jn0) (in1 := jn1) (fun m h => hm m (by simp [h])) (fun m h => hm m (by simp [h]))
    (by rw [hb0, hb1]) (by rw [hs]; exact w0) (by rw [hs]; exact w1)
  refine ⟨y0, y1, z0, z1, _, ey, ?_⟩
  rw [ez]
  congr 3
  apply List.map_congr_left
  intro i hi
  have hi := List.mem_range.1 hi
  have P1 := (validComposed_iff.mp hv).cor1
  have hb1' : ∀ x ∈ p1.snd.perm.pi, x < τ.length := fun x hx => by rw [hτ.2, ← P1.len]; exact P1.perm.1 x hx
  have hx : p1.snd.perm.pi.getD i 0 < n := by
    have : i < p1.snd.perm.pi.length := by rw [P1.len]; exact hi
    rw [List.getD_eq_getElem?_getD, List.getElem?_eq_getElem this, Option.getD_some]
    exact lt_of_lt_of_eq (P1.perm.1 _ (List.getElem_mem this)) P1.len
  have key := rearrange_at hτ (by rw [hG]; simp) e hx
  have hτx : τ.getD (p1.snd.perm.pi.getD i 0) 0 < n := by
    have t := permOf_iff.1 hτ
    have : p1.snd.perm.pi.getD i 0 < τ.length := by rw [t.2]; exact hx
    rw [List.getD_eq_getElem?_getD, List.getElem?_eq_getElem this, Option.getD_some]
    exact lt_of_lt_of_eq (t.1.1 _ (List.getElem_mem this)) t.2
  have gat : ∀ a b j, j < n → (G a b).getD j false = flagAt a b (π0.getD j 0) := by
    intro a b j hj
    rw [hG]
    simp [hj]
  rw [gat _ _ _ hτx, gat _ _ _ hx] at key
  rw [e0, e0', e1, getD_gather hb1' (by rw [P1.len]; exact hi)]
  exact key

/-- C83, removal of rows, as seen by the party of index 1, which knows `π1`; the permutation `π0` of the other party is secret. -/
theorem C83_extract1 {n : Nat} (hn : 0 < n) {π1 : List Nat} {f0 f1 g0 g1 : List Byte}
    (hf0 : f0.length = n) (hf1 : f1.length = n) (hg0 : g0.length = n) (hg1 : g1.length = n) (hc : numActive n f0 f1 = numActive n g0 g1) :
    ∃ φ : List Nat → List Nat, (∀ π, PermOf n π → PermOf n (φ π) ∧ ∃! π', PermOf n π' ∧ φ π' = π) ∧
      ∀ {W0 o0 W1 o1 : Nat} {p0 p1 q0 q1 : ComposedPerm}, ValidComposed n W0 o0 W1 o1 p0 p1 → ValidComposed n W0 o0 W1 o1 q0 q1 →
      p1.snd.perm.pi = π1 → q1.snd.perm.pi = π1 → q0.snd.perm.pi = φ p0.snd.perm.pi →
      ∀ {in0 in1 jn0 jn1 : List BinMatrix}, (∀ m ∈ in0 ++ in1 ++ jn0 ++ jn1, MatOk n m) → in0.map (·.bits) = in1.map (·.bits) →
      jn0.map (·.bits) = in0.map (·.bits) → jn1.map (·.bits) = in0.map (·.bits) →
      o0 + 1 + (in0.map fun m => divCeil m.bits 8).sum ≤ W0 → o1 + 1 + (in0.map fun m => divCeil m.bits 8).sum ≤ W1 →
      ∃ y0 y1 z0 z1 v, opened n p0 p1 f0 f1 in0 in1 in0.length = .ok (y0, y1, v) ∧
        opened n q0 q1 g0 g1 jn0 jn1 jn0.length = .ok (z0, z1, v) := by
  obtain ⟨τ, hτ, e⟩ := rearrange (n := n) (g := (List.range n).map (flagAt f0 f1)) (g' := (List.range n).map (flagAt g0 g1)) (by simp) (by simp) hc
  refine ⟨fun π => gather π τ, compose_bij hτ, ?_⟩
  intro W0 o0 W1 o1 p0 p1 q0 q1 hv hw e1 e1' e0 in0 in1 jn0 jn1 hm hb hb0 hb1 w0 w1
  have hs : (jn0.map fun m => divCeil m.bits 8) = in0.map fun m => divCeil m.bits 8 := by
    have := congrArg (List.map fun b => divCeil b 8) hb0
    rw [List.map_map, List.map_map] at this
    exact this
  obtain ⟨y0, y1, ey⟩ := opened_ok hv hn hf0 hf1 (in0 := in0) (in1 := in1) (fun m h => hm m (by simp [h])) (fun m h => hm m (by simp [h])) hb w0 w1
  obtain ⟨z0, z1, ez⟩ := opened_ok hw hn hg0 hg1 (in0 := jn0) (in1 := jn1) (fun m h => hm m (by simp [h])) (fun m h => hm m (by simp [h]))
    (by rw [hb0, hb1]) (by rw [hs]; exact w0) (by rw [hs]; exact w1)
  refine ⟨y0, y1, z0, z1, _, ey, ?_⟩
  rw [ez]
  congr 3
  apply List.map_congr_left
  intro i hi
  have hi := List.mem_range.1 hi
  have P0 := (validComposed_iff.mp hv).cor0
  have P1 := (validComposed_iff.mp hv).cor1
  have lt : ∀ (π : List Nat), IsPermList π → π.length = n → ∀ j < n, π.getD j 0 < n := by
    intro π h hl j hj
    have : j < π.length := by omega
    rw [List.getD_eq_getElem?_getD, List.getElem?_eq_getElem this, Option.getD_some]
    exact lt_of_lt_of_eq (h.1 _ (List.getElem_mem this)) hl
  have hx := lt _ P1.perm P1.len i hi
  have hy := lt _ P0.perm P0.len _ hx
  have t := permOf_iff.1 hτ
  have key := rearrange_at hτ (by simp) e hy
  have hz := lt _ t.1 t.2 _ hy
  rw [e1'.trans e1.symm, e0, getD_gather (fun x h => by rw [t.2, ← P0.len]; exact P0.perm.1 x h) (by rw [P0.len]; exact hx)]
  have gat : ∀ a b j, j < n → ((List.range n).map (flagAt a b)).getD j false = flagAt a b j := by
    intro a b j hj
    simp [hj]
  rw [gat _ _ _ hz, gat _ _ _ hy] at key
  exact key

end Extract

/-! ## Correcting a shared permutation -/

namespace ComposedPerm

/-- The correction is the one modelled before. -/
theorem derandView_both (c0 c1 : ComposedPerm) (s0 s1 : List (BitVec 32)) :
    (derandView c0 c1 s0 s1).map (fun x => x.2.2) = derandomizeBoth c0 c1 s0 s1 := by
  unfold derandView derandomizeBoth
  split
  · rfl
  · cases SecJoin.applyBoth c1.snd c0.rcv .inverse (u32Mat s0) (some (u32Mat s1)) with
    | error e => rfl
    | ok x =>
      simp only [ok_bind]
      cases matU32 x.2.2.2.1 with
      | error e => rfl
      | ok d1 =>
        simp only [ok_bind]
        cases matU32 x.2.2.2.2 with
        | error e => rfl
        | ok d0 =>
          simp only [ok_bind]
          cases throwIf (d1.length != s0.length) with
          | error e => rfl
          | ok u =>
            simp only [ok_bind]
            cases c0.snd.derandomize ⟨(List.zipWith (· ^^^ ·) d1 d0).map BitVec.toNat⟩ with
            | error e => rfl
            | ok y =>
              simp only [ok_bind]
              cases c1.rcv.derandomize y.2 with
              | error e => rfl
              | ok r => rfl

/-- C83, correction of a shared permutation: the party of index 0 learns `o` with `o ∘ π1 = q`, where `q` is the new permutation and `π1`
the other party's secret one; the party of index 1 gets `msg` with `msg ∘ o = π0`, where `π0` is the old permutation of the first one. For every
other new permutation `q'` exactly one `π1` gives the same `o`, and exactly one `π0` (with the same `π1`) gives the same `msg`. -/
theorem C83_derandomize {n W0 o0 W1 o1 : Nat} {c0 c1 : ComposedPerm} (hv : ValidComposed n W0 o0 W1 o1 c0 c1) (hn : 0 < n)
    {s0 s1 : List (BitVec 32)} (hs0 : s0.length = n) (hs1 : s1.length = n)
    (hp : IsBijection ((List.zipWith (· ^^^ ·) s0 s1).map BitVec.toNat)) (h1 : o1 + 4 ≤ W1) :
    ∃ o msg c0' c1', derandView c0 c1 s0 s1 = .ok (o, msg, c0', c1') ∧ PermOf n o ∧ PermOf n msg ∧
      (∀ i < n, o.getD (c1.snd.perm.pi.getD i 0) 0 = ((List.zipWith (· ^^^ ·) s0 s1).map BitVec.toNat).getD i 0) ∧
      (∀ i < n, msg.getD (o.getD i 0) 0 = c0.snd.perm.pi.getD i 0) ∧
      ∀ q', PermOf n q' →
        (∃! π1, PermOf n π1 ∧ ∀ i < n, o.getD (π1.getD i 0) 0 = q'.getD i 0) ∧
        ∃! π0, PermOf n π0 ∧ ∃ o', PermOf n o' ∧ (∀ i < n, o'.getD (c1.snd.perm.pi.getD i 0) 0 = q'.getD i 0) ∧
          ∀ i < n, msg.getD (o'.getD i 0) 0 = π0.getD i 0 := by
  have h := validComposed_iff.mp hv
  have hp := (isBijection_iff _).mp hp
  have hpl : ((List.zipWith (· ^^^ ·) s0 s1).map BitVec.toNat).length = n := by simp [hs0, hs1]
  obtain ⟨y1, y0, e, sh1, sh0, x⟩ := applyBoth_ok h.cor1 hn (op := .inverse) (x := u32Mat s0)
    (xs := some (u32Mat s1)) (by rw [← hs0]; exact u32Mat_shape s0)
    (fun y hy => by simp at hy; subst hy; exact ⟨by rw [← hs1]; exact u32Mat_shape s1, rfl⟩) h1
  have hd : (List.zipWith (· ^^^ ·) (y1.map dec32) (y0.map dec32)).map BitVec.toNat =
      gather (invList c1.snd.perm.pi) ((List.zipWith (· ^^^ ·) s0 s1).map BitVec.toNat) := by
    rw [zipWith_dec32 sh1 sh0, x]
    simp only [u32Mat, joinIn, xm_u32, permRows, gather_map, List.map_map]
    apply List.map_congr_left
    intro w _
    simp [dec32_u32Bytes]
  obtain ⟨q, hq⟩ : ∃ q, q = (List.zipWith (· ^^^ ·) s0 s1).map BitVec.toNat := ⟨_, rfl⟩
  rw [← hq] at hp hpl hd ⊢
  have P0 := h.cor0
  have P1 := h.cor1
  obtain ⟨o, ho⟩ : ∃ o, o = gather (invList c1.snd.perm.pi) q := ⟨_, rfl⟩
  have oP : IsPermList o ∧ o.length = n := by
    rw [ho]
    have hil : (invList c1.snd.perm.pi).length = n := by rw [invList_length, P1.len]
    exact ⟨gather_isPerm (invList_isPerm P1.perm) hp (by omega),
      by rw [gather_length (by rw [hpl, ← hil]; exact (invList_isPerm P1.perm).1), hil]⟩
  obtain ⟨msg, hmsg⟩ : ∃ msg, msg = gather (invList o) c0.snd.perm.pi := ⟨_, rfl⟩
  have mP : IsPermList msg ∧ msg.length = n := by
    rw [hmsg]
    have hil : (invList o).length = n := by rw [invList_length, oP.2]
    exact ⟨gather_isPerm (invList_isPerm oP.1) P0.perm (by rw [hil, P0.len]),
      by rw [gather_length (by rw [P0.len, ← hil]; exact (invList_isPerm oP.1).1), hil]⟩
  obtain ⟨msg', r', e1, e2, hi⟩ := derandomize_ok P0 (q := ⟨o⟩) oP.1 oP.2
  have em : msg' = msg := by
    have hls : (invList o).length = c0.snd.perm.pi.length := by rw [invList_length, oP.2, P0.len]
    simp only [PermCorSender.derandomize, Perm.inverse_eq (p := ⟨o⟩) oP.1, ok_bind] at e1
    rw [Perm.compose_eq (p := ⟨invList o⟩) (invList_isPerm oP.1).1 (by rw [Perm.size, Perm.size]; exact hls.symm)] at e1
    simp only [ok_bind, Except.ok.injEq, Prod.mk.injEq] at e1
    rw [hmsg, ← e1.2]
  subst em
  have bd : ∀ ρ : List Nat, IsPermList ρ ∧ ρ.length = n → ∀ {α : Type} (z : List α), z.length = n → ∀ i ∈ ρ, i < z.length := by
    intro ρ hρ α z hz i hi
    have := hρ.1.1 i hi
    omega
  have at0 : ∀ ρ z : List Nat, IsPermList ρ ∧ ρ.length = n → z.length = n → ∀ i < n, z.getD (ρ.getD i 0) 0 = (gather ρ z).getD i 0 :=
    fun ρ z hρ hz i hi => (getD_gather (bd ρ hρ z hz) (by rw [hρ.2]; exact hi)).symm
  have oq : gather c1.snd.perm.pi o = q := by rw [ho]; exact (gather_cancel P1.perm (by rw [hpl, P1.len])).2
  have mo : gather o msg' = c0.snd.perm.pi := by rw [hmsg]; exact (gather_cancel oP.1 (by rw [P0.len, oP.2])).2
  refine ⟨o, msg', ⟨0, { c0.snd with perm := ⟨o⟩ }, { c0.rcv with off := o1 + 4 }⟩, ⟨1, { c1.snd with off := o1 + 4 }, r'⟩, ?_,
    permOf_iff.2 oP, permOf_iff.2 mP, ?_, ?_, ?_⟩
  · simp only [derandView, h.idx0, h.idx1, e, ok_bind]
    simp only [bne_self_eq_false, Bool.false_or, Nat.reduceBEq, Bool.false_eq_true, if_false]
    rw [matU32_ok sh1, ok_bind, matU32_ok sh0, ok_bind]
    simp only [List.length_map, sh1.1, hs0, bne_self_eq_false, throwIf_false, ok_bind, hd, ← ho, e1, e2]
    rfl
  · intro i hi
    rw [at0 _ _ ⟨P1.perm, P1.len⟩ oP.2 i hi, oq]
  · intro i hi
    rw [at0 _ _ oP mP.2 i hi, mo]
  · intro q' hq'
    refine ⟨solve_right (permOf_iff.2 oP) hq', ?_⟩
    have Q := permOf_iff.1 hq'
    obtain ⟨u, hu⟩ : ∃ u, u = gather (invList c1.snd.perm.pi) q' := ⟨_, rfl⟩
    have uP : IsPermList u ∧ u.length = n := by
      rw [hu]
      have hil : (invList c1.snd.perm.pi).length = n := by rw [invList_length, P1.len]
      exact ⟨gather_isPerm (invList_isPerm P1.perm) Q.1 (by omega),
        by rw [gather_length (by rw [Q.2, ← hil]; exact (invList_isPerm P1.perm).1), hil]⟩
    have uq : gather c1.snd.perm.pi u = q' := by rw [hu]; exact (gather_cancel P1.perm (by rw [Q.2, P1.len])).2
    refine ⟨gather u msg', ⟨permOf_iff.2 ⟨gather_isPerm uP.1 mP.1 (by omega), by rw [gather_length (bd u uP _ mP.2), uP.2]⟩, u,
      permOf_iff.2 uP, fun i hi => by rw [at0 _ _ ⟨P1.perm, P1.len⟩ uP.2 i hi, uq], fun i hi => at0 _ _ uP mP.2 i hi⟩, ?_⟩
    rintro π0 ⟨hπ0, o', ho', k1, k2⟩
    have O := permOf_iff.1 ho'
    have eo : gather c1.snd.perm.pi o' = q' := by
      apply list_ext_getD (n := n) (by rw [gather_length (bd _ ⟨P1.perm, P1.len⟩ _ O.2), P1.len]) Q.2
      intro i hi
      rw [← at0 _ _ ⟨P1.perm, P1.len⟩ O.2 i hi]
      exact k1 i hi
    have : o' = u := by
      rw [hu, ← eo]
      exact (gather_cancel P1.perm (by rw [O.2, P1.len])).1.symm
    subst this
    apply list_ext_getD (n := n) hπ0.2 (by rw [gather_length (bd o' uP _ mP.2), uP.2])
    intro i hi
    rw [← at0 _ _ uP mP.2 i hi]
    exact (k2 i hi).symm

end ComposedPerm

/-! ## Concrete cases -/

/-- Correlations exist for all permutations. -/
theorem exists_valid {n : Nat} {π0 π1 : List Nat} (h0 : PermOf n π0) (h1 : PermOf n π1) :
    ∃ c0 c1, ValidComposed n 16 0 16 0 c0 c1 ∧ c0.snd.perm.pi = π0 ∧ c1.snd.perm.pi = π1 := by
  have mk : ∀ π, PermOf n π → ∃ s r, CorInv n 16 0 s r ∧ s.perm.pi = π := by
    intro π h
    have h := permOf_iff.1 h
    obtain ⟨s, r, -, e, hc⟩ := genPerm_ok (p := ⟨π⟩) h.1 (bytes := 16) (delta := List.replicate n (List.replicate 16 0))
      (b := List.replicate n (List.replicate 16 0)) (by unfold Shape; simp [h.2]) (by unfold Shape; simp [h.2])
    rw [h.2] at hc
    exact ⟨s, r, hc, by rw [e]⟩
  obtain ⟨s0, r0, k0, e0⟩ := mk π0 h0
  obtain ⟨s1, r1, k1, e1⟩ := mk π1 h1
  exact ⟨⟨0, s0, r1⟩, ⟨1, s1, r0⟩, validComposed_iff.2 ⟨rfl, rfl, k0, k1⟩, e0, e1⟩

theorem ex_perm {π : List Nat} (h : IsPermList π := by unfold IsPermList; decide) : PermOf π.length π := permOf_iff.2 ⟨h, rfl⟩

/-- Five rows with three active ones, in different places and differently shared, and a column of nine bits: some correlations of the
other party make the opened flags the same. -/
example : let f0 : List Byte := [1, 0, 7, 1, 0]; let f1 : List Byte := [0, 1, 6, 1, 0]; let g0 : List Byte := [0, 0, 1, 1, 0]
    let g1 : List Byte := [0, 0, 0, 0, 1]
    let col : BinMatrix := ⟨9, 2, [[1, 1], [2, 0], [3, 1], [4, 0], [5, 1]]⟩
    ∃ p0 p1 q0 q1 y0 y1 z0 z1 v, p0.snd.perm.pi = [4, 2, 0, 1, 3] ∧ q0.snd.perm.pi = [4, 2, 0, 1, 3] ∧ p1.snd.perm.pi = [1, 0, 3, 4, 2] ∧
      Extract.opened 5 p0 p1 f0 f1 [col] [col] 1 = .ok (y0, y1, v) ∧ Extract.opened 5 q0 q1 g0 g1 [col] [col] 1 = .ok (z0, z1, v) := by
  intro f0 f1 g0 g1 col
  have hπ0 : PermOf 5 [4, 2, 0, 1, 3] := ex_perm
  have hπ1 : PermOf 5 [1, 0, 3, 4, 2] := ex_perm
  obtain ⟨φ, hb, h⟩ := Extract.C83_extract0 (n := 5) (by decide) hπ0 (f0 := f0) (f1 := f1) (g0 := g0) (g1 := g1) rfl rfl rfl rfl (by decide)
  obtain ⟨p0, p1, hp, e0, e1⟩ := exists_valid hπ0 hπ1
  obtain ⟨q0, q1, hq, k0, k1⟩ := exists_valid hπ0 (hb _ hπ1).1
  have hm : Extract.MatOk 5 col := ⟨by decide, by unfold Shape; decide⟩
  obtain ⟨y0, y1, z0, z1, v, a, b⟩ := h hp hq e0 k0 (by rw [k1, e1]) (in0 := [col]) (in1 := [col]) (jn0 := [col]) (jn1 := [col])
    (by intro m hm'; simp at hm'; subst hm'; exact hm) rfl rfl rfl (by decide) (by decide)
  exact ⟨p0, p1, q0, q1, y0, y1, z0, z1, v, e0, k0, e1, a, b⟩

/-- Three permutations of four points. -/
example : ∃ c0 c1, ValidComposed 4 16 0 16 0 c0 c1 ∧ c0.snd.perm.pi = [3, 1, 0, 2] ∧ c1.snd.perm.pi = [1, 2, 3, 0] ∧
    IsBijection ((List.zipWith (· ^^^ ·) [5, 6, 7, 9] ([7, 6, 6, 10] : List (BitVec 32))).map BitVec.toNat) ∧ 0 + 4 ≤ 16 := by
  obtain ⟨c0, c1, h, e0, e1⟩ := exists_valid (n := 4) (π0 := [3, 1, 0, 2]) (π1 := [1, 2, 3, 0]) ex_perm ex_perm
  exact ⟨c0, c1, h, e0, e1, (isBijection_iff _).2 (by unfold IsPermList; decide), by decide⟩

end SecJoin
