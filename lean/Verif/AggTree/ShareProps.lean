import Verif.AggTree.ShareTree
import Verif.GMW.AnyCir
/-!
# C27, C29 for the tree run by the protocol on shares
-/
namespace SecJoin
namespace Agg
open Gmw.Wires (Col Mem Env Cir Computes cutIns any_cir runs runs_length runs_consec env_exists)
open Gmw (Block)

/-! ## The hypotheses can be met for every operator -/

/-- The cells of the ports with given bits. -/
def cellsOf (w : Nat) : List Port → Nat → (Nat → Nat → Bool) → List (Cell w)
  | [], _, _ => []
  | .v _ :: ps, i, x => .v (mkVec w (x i)) :: cellsOf w ps (i + 1) x
  | .b _ :: ps, i, x => .b (x i 0) :: cellsOf w ps (i + 1) x

theorem load_v {r : Reg} {ps : List Port} {cs : List (Cell w)} {s s' : Wires w} (h : loadPorts (.v r :: ps) cs s = .ok s') :
    ∃ x cs', cs = .v x :: cs' ∧ loadPorts ps cs' (s.setVal r x) = .ok s' := by
  cases cs with
  | nil => cases h
  | cons c cs =>
    cases c with
    | v x => exact ⟨x, cs, rfl, h⟩
    | b x => cases h

theorem load_b {r : Reg} {ps : List Port} {cs : List (Cell w)} {s s' : Wires w} (h : loadPorts (.b r :: ps) cs s = .ok s') :
    ∃ x cs', cs = .b x :: cs' ∧ loadPorts ps cs' (s.setBit r x) = .ok s' := by
  cases cs with
  | nil => cases h
  | cons c cs =>
    cases c with
    | b x => exact ⟨x, cs, rfl, h⟩
    | v x => cases h

theorem load_nil {cs : List (Cell w)} {s s' : Wires w} (h : loadPorts [] cs s = .ok s') : cs = [] := by
  cases cs with
  | nil => rfl
  | cons c cs => cases h

theorem mkVec_eq {w : Nat} {g : Nat → Bool} {x : BitVec w} (h : ∀ j < w, g j = x.getLsbD j) : mkVec w g = x := by
  apply BitVec.eq_of_getLsbD_eq
  intro j hj
  rw [getLsbD_mkVec w g hj, h j hj]

theorem cellsOf_eq {w : Nat} : ∀ (ps : List Port) (i : Nat) (x : Nat → Nat → Bool) (cs : List (Cell w)) (s s' : Wires w), loadPorts ps cs s = .ok s' →
    (∀ (k : Nat) (cell : Cell w), cs[k]? = some cell → ∀ j < cell.width, x (i + k) j = cell.bit j) → cellsOf w ps i x = cs
  | [], i, x, cs, s, s', h, _ => (load_nil h).symm
  | .v r :: ps, i, x, cs, s, s', h, hx => by
    obtain ⟨y, cs', rfl, h'⟩ := load_v h
    rw [cellsOf, cellsOf_eq ps (i + 1) x cs' _ s' h' fun k c hc j hj => by
      have := hx (k + 1) c (by simpa using hc) j hj
      rwa [show i + (k + 1) = i + 1 + k by omega] at this]
    have : mkVec w (x i) = y := mkVec_eq fun j hj => hx 0 _ rfl j hj
    rw [this]
  | .b r :: ps, i, x, cs, s, s', h, hx => by
    obtain ⟨y, cs', rfl, h'⟩ := load_b h
    rw [cellsOf, cellsOf_eq ps (i + 1) x cs' _ s' h' fun k c hc j hj => by
      have := hx (k + 1) c (by simpa using hc) j hj
      rwa [show i + (k + 1) = i + 1 + k by omega] at this]
    have : x i 0 = y := hx 0 _ rfl 0 (by simp [Cell.width])
    rw [this]

theorem load_width {w : Nat} : ∀ (ps : List Port) (cs : List (Cell w)) (s s' : Wires w), loadPorts ps cs s = .ok s' → cs.map Cell.width = ps.map (Port.bits w)
  | [], cs, s, s', h => by rw [load_nil h]; rfl
  | .v r :: ps, cs, s, s', h => by
    obtain ⟨y, cs', rfl, h'⟩ := load_v h
    rw [List.map_cons, load_width ps cs' _ s' h']; rfl
  | .b r :: ps, cs, s, s', h => by
    obtain ⟨y, cs', rfl, h'⟩ := load_b h
    rw [List.map_cons, load_width ps cs' _ s' h']; rfl

/-- The result does not depend on what the other wires hold. -/
def Circ.Indep (k : Circ) (f : BitVec w → BitVec w → BitVec w) : Prop :=
  ∀ inp sc s out, k.run f sc s inp = .ok out → ∀ sc' s', k.run f sc' s' inp = .ok out

theorem cirOk_exists {w : Nat} {k : Circ} {f : BitVec w → BitVec w → BitVec w} (hk : k.Indep f) (hi : 0 < (k.ins.map (Port.bits w)).sum)
    (ho : ∀ p ∈ k.outs, 0 < p.bits w) (hne : k.outs ≠ []) : ∃ c, CirOk k w f c ∧ ∀ b ∈ c.outs, b ≠ [] ∧ ∀ j, (h : j + 1 < b.length) → b[j + 1] = b[j] + 1 := by
  have hos : 0 < (k.outs.map (Port.bits w)).sum := by
    cases h : k.outs with
    | nil => exact absurd h hne
    | cons p ps =>
      have := ho p (by rw [h]; exact List.mem_cons_self)
      simp only [List.map_cons, List.sum_cons]
      omega
  obtain ⟨c, c1, c2, c3⟩ := any_cir (k.ins.map (Port.bits w)) (k.outs.map (Port.bits w)) hi hos
    (fun x i j => match k.run f 0 ⟨fun _ => 0, fun _ => false⟩ (cellsOf w k.ins 0 x) with
      | .ok out => (out[i]?).elim false fun c => c.bit j
      | .error _ => false)
  refine ⟨c, ⟨by rw [c1, runs_length], by rw [c2, runs_length], _, c3, fun x inp hx sc s out hr i cell hc j hj => ?_⟩, ?_⟩
  · have e : cellsOf w k.ins 0 (cutIns (k.ins.map (Port.bits w)) x) = inp := by
      unfold Circ.run at hr
      cases hl : loadPorts k.ins inp s with
      | error e => rw [hl] at hr; cases hr
      | ok s' =>
        refine cellsOf_eq _ _ _ _ s s' hl fun q cl hq j hj => ?_
        have hw := congrArg (fun l : List Nat => l[q]?) (load_width _ _ _ _ hl)
        simp only [List.getElem?_map, hq, Option.map_some] at hw
        rw [cutIns, Nat.zero_add, if_pos (by rw [List.getD_eq_getElem?_getD, List.getElem?_map, ← hw]; exact hj), hx q cl hq j hj]
    simp only [e, hk _ _ _ _ hr, hc, Option.elim_some]
  · rw [c2]
    refine runs_consec fun b hb => ?_
    obtain ⟨p, hp, rfl⟩ := List.mem_map.1 hb
    exact ho p hp

theorem up_indep (t : AggType) (f : BitVec w → BitVec w → BitVec w) : (upstreamCir t).Indep f := by
  intro inp sc s out h sc' s'
  have hs : ∃ l r, inp = upInputs t l r := by
    unfold Circ.run at h
    cases hl : loadPorts (upstreamCir t).ins inp s with
    | error e => rw [hl] at h; cases h
    | ok u =>
      clear h
      cases t with
      | pre =>
        obtain ⟨a, _, rfl, h1⟩ := load_v hl
        obtain ⟨b, _, rfl, h2⟩ := load_v h1
        obtain ⟨c, _, rfl, h3⟩ := load_b h2
        obtain ⟨d, _, rfl, h4⟩ := load_b h3
        rw [load_nil h4]
        exact ⟨((a, c), (a, c)), ((b, d), (b, d)), rfl⟩
      | suf =>
        obtain ⟨a, _, rfl, h1⟩ := load_v hl
        obtain ⟨b, _, rfl, h2⟩ := load_v h1
        obtain ⟨c, _, rfl, h3⟩ := load_b h2
        obtain ⟨d, _, rfl, h4⟩ := load_b h3
        rw [load_nil h4]
        exact ⟨((a, c), (a, c)), ((b, d), (b, d)), rfl⟩
      | full =>
        obtain ⟨a, _, rfl, h1⟩ := load_v hl
        obtain ⟨b, _, rfl, h2⟩ := load_v h1
        obtain ⟨c, _, rfl, h3⟩ := load_b h2
        obtain ⟨d, _, rfl, h4⟩ := load_b h3
        obtain ⟨a', _, rfl, h5⟩ := load_v h4
        obtain ⟨b', _, rfl, h6⟩ := load_v h5
        obtain ⟨c', _, rfl, h7⟩ := load_b h6
        obtain ⟨d', _, rfl, h8⟩ := load_b h7
        rw [load_nil h8]
        exact ⟨((a, c), (a', c')), ((b, d), (b', d')), rfl⟩
  obtain ⟨l, r, rfl⟩ := hs
  rw [C29_upstream] at h ⊢
  exact h

theorem down_indep (t : AggType) (f : BitVec w → BitVec w → BitVec w) : (downstreamCir t).Indep f := by
  intro inp sc s out h sc' s'
  have hs : ∃ l r p, inp = downInputs t l r p := by
    unfold Circ.run at h
    cases hl : loadPorts (downstreamCir t).ins inp s with
    | error e => rw [hl] at h; cases h
    | ok u =>
      clear h
      cases t with
      | pre =>
        obtain ⟨a, _, rfl, h1⟩ := load_v hl
        obtain ⟨b, _, rfl, h2⟩ := load_b h1
        obtain ⟨c, _, rfl, h3⟩ := load_v h2
        rw [load_nil h3]
        exact ⟨((a, b), (a, b)), ((a, b), (a, b)), (c, c), rfl⟩
      | suf =>
        obtain ⟨a, _, rfl, h1⟩ := load_v hl
        obtain ⟨b, _, rfl, h2⟩ := load_b h1
        obtain ⟨c, _, rfl, h3⟩ := load_v h2
        rw [load_nil h3]
        exact ⟨((a, b), (a, b)), ((a, b), (a, b)), (c, c), rfl⟩
      | full =>
        obtain ⟨a, _, rfl, h1⟩ := load_v hl
        obtain ⟨b, _, rfl, h2⟩ := load_b h1
        obtain ⟨c, _, rfl, h3⟩ := load_v h2
        obtain ⟨a', _, rfl, h4⟩ := load_v h3
        obtain ⟨b', _, rfl, h5⟩ := load_b h4
        obtain ⟨c', _, rfl, h6⟩ := load_v h5
        rw [load_nil h6]
        exact ⟨((a, b), (a, b)), ((a', b'), (a', b')), (c, c'), rfl⟩
  obtain ⟨l, r, p, rfl⟩ := hs
  rw [C29_downstream] at h ⊢
  exact h

theorem leaf_indep (t : AggType) (f : BitVec w → BitVec w → BitVec w) : (leafCircuit t).Indep f := by
  intro inp sc s out h sc' s'
  have hs : ∃ l r pl pr, l.1.1 = l.2.1 ∧ r.1.1 = r.2.1 ∧ inp = leafInputs t l r pl pr := by
    unfold Circ.run at h
    cases hl : loadPorts (leafCircuit t).ins inp s with
    | error e => rw [hl] at h; cases h
    | ok u =>
      clear h
      cases t with
      | pre =>
        obtain ⟨x, _, rfl, h1⟩ := load_v hl
        obtain ⟨y, _, rfl, h2⟩ := load_v h1
        obtain ⟨a, _, rfl, h3⟩ := load_v h2
        obtain ⟨b, _, rfl, h4⟩ := load_v h3
        obtain ⟨c, _, rfl, h5⟩ := load_b h4
        obtain ⟨d, _, rfl, h6⟩ := load_b h5
        rw [load_nil h6]
        exact ⟨((x, c), (x, c)), ((y, d), (y, d)), (a, a), (b, b), rfl, rfl, rfl⟩
      | suf =>
        obtain ⟨x, _, rfl, h1⟩ := load_v hl
        obtain ⟨y, _, rfl, h2⟩ := load_v h1
        obtain ⟨a, _, rfl, h3⟩ := load_v h2
        obtain ⟨b, _, rfl, h4⟩ := load_v h3
        obtain ⟨c, _, rfl, h5⟩ := load_b h4
        obtain ⟨d, _, rfl, h6⟩ := load_b h5
        rw [load_nil h6]
        exact ⟨((x, c), (x, c)), ((y, d), (y, d)), (a, a), (b, b), rfl, rfl, rfl⟩
      | full =>
        obtain ⟨x, _, rfl, h1⟩ := load_v hl
        obtain ⟨y, _, rfl, h2⟩ := load_v h1
        obtain ⟨a, _, rfl, h3⟩ := load_v h2
        obtain ⟨b, _, rfl, h4⟩ := load_v h3
        obtain ⟨c, _, rfl, h5⟩ := load_b h4
        obtain ⟨d, _, rfl, h6⟩ := load_b h5
        obtain ⟨a', _, rfl, h7⟩ := load_v h6
        obtain ⟨b', _, rfl, h8⟩ := load_v h7
        obtain ⟨c', _, rfl, h9⟩ := load_b h8
        obtain ⟨d', _, rfl, h10⟩ := load_b h9
        rw [load_nil h10]
        exact ⟨((x, c), (x, c')), ((y, d), (y, d')), (a, a'), (b, b'), rfl, rfl, rfl⟩
  obtain ⟨l, r, pl, pr, h1, h2, rfl⟩ := hs
  rw [C29_leaf t f _ _ l r pl pr h1 h2] at h ⊢
  exact h

/-- For every operator on rows of at least one bit, every number of rows and any further contents of the memory there are circuits and OLEs with which the tree
can be run. -/
theorem treeEnv_exists {w : Nat} (hw : 0 < w) (t : AggType) (f : BitVec w → BitVec w → BitVec w) {n : Nat} {p : Params} (hn : 2 ≤ n)
    (hp : computeTreeSizes n = .ok p) (junk : Nat → Nat → Block) (pad : Nat → Nat → Bool) (padIn : Nat → Nat → Nat → Bool) :
    ∃ T : TreeEnv, T.Ok w t f p := by
  obtain ⟨cu, hu, -⟩ := cirOk_exists (w := w) (up_indep t f) (by cases t <;> simp [upstreamCir, optL, AggType.hasPre, AggType.hasSuf, Port.bits])
    (by cases t <;> simp [upstreamCir, optL, AggType.hasPre, AggType.hasSuf, Port.bits, hw]) (by cases t <;> simp [upstreamCir, optL, AggType.hasPre, AggType.hasSuf])
  obtain ⟨cd, hd, -⟩ := cirOk_exists (w := w) (down_indep t f) (by cases t <;> simp [downstreamCir, optL, AggType.hasPre, AggType.hasSuf, Port.bits])
    (by cases t <;> simp [downstreamCir, optL, AggType.hasPre, AggType.hasSuf, Port.bits, hw]) (by cases t <;> simp [downstreamCir, optL, AggType.hasPre, AggType.hasSuf])
  obtain ⟨cl, hl, hlc⟩ := cirOk_exists (w := w) (leaf_indep t f) (by cases t <;> simp [leafCircuit, optL, AggType.hasPre, AggType.hasSuf, Port.bits])
    (by cases t <;> simp [leafCircuit, Port.bits, hw]) (by cases t <;> simp [leafCircuit])
  obtain ⟨k, R, r, c, e, hR1, hR2, hnN, hc, -⟩ := sizes_ok hn
  rw [hp] at e
  obtain rfl : p = _ := Except.ok.inj e
  have up : ∀ m : Nat, ∃ E : Env, E.Ok m cu := fun m => by obtain ⟨a, b, h⟩ := env_exists m cu junk junk pad pad; exact ⟨_, h⟩
  have dn : ∀ m : Nat, ∃ E : Env, E.Ok m cd := fun m => by obtain ⟨a, b, h⟩ := env_exists m cd junk junk pad pad; exact ⟨_, h⟩
  have lf : ∀ m : Nat, ∃ E : Env, E.Ok m cl := fun m => by obtain ⟨a, b, h⟩ := env_exists m cl junk junk pad pad; exact ⟨_, h⟩
  choose eu hu' using up
  choose ed hd' using dn
  choose el hl' using lf
  let sz : Nat → Nat := fun j => (2 * R :: 2 ^ k :: halves k (2 ^ k)).getD j 0 / 2
  let M : Nat → Mem := fun m => ⟨fun _ => m, fun _ => m, padIn, junk⟩
  have fit : ∀ m, (M m).Fits m := fun m i => ⟨by simp only [M]; omega, by simp only [M]; omega⟩
  refine ⟨⟨cu, cd, cl, fun j => eu (sz j), fun j => M (sz j), fun j => M (sz j), fun j => ed (sz j), fun j => M (sz j), fun j => M (sz j),
    el ((2 ^ k + R) / 2), M ((2 ^ k + R) / 2), M ((2 ^ k + R) / 2)⟩, ⟨hu, hd, hl, hlc, fun j s hs hj => ?_, hl' _, fit _, fit _⟩⟩
  have es : sz j = s / 2 := by
    simp only [sz]
    rw [List.getD_eq_getElem?_getD, hs]
    rfl
  refine ⟨?_, by rw [← es]; exact ⟨hu' _, fit _, fit _⟩, by rw [← es]; exact ⟨hd' _, fit _, fit _⟩⟩
  dsimp only at hs hj
  cases j with
  | zero => cases hs; omega
  | succ j =>
    simp only [List.length_cons, halves_length] at hj
    rw [List.getElem?_cons_succ, halves_get k j (by omega)] at hs
    cases hs
    obtain ⟨i, hi⟩ : ∃ i, k - j = i + 1 := ⟨k - j - 1, by omega⟩
    rw [hi, Nat.pow_succ]
    have := Nat.two_pow_pos i
    omega

/-! ## The properties -/

/-- **C29 on shares, with the protocol.** Both parties run the tree on their shares of the rows and of the control bits; every circuit is evaluated by the GMW
protocol on the columns that the code maps, with any contents of the memory beyond the rows. What they get are shares of what the plaintext tree gives. -/
theorem C29_gmw {w : Nat} {t : AggType} {f : BitVec w → BitVec w → BitVec w} (ha : ∀ a b c, f (f a b) c = f a (f b c)) {T : TreeEnv}
    {xs0 xs1 : List (BitVec w)} {c0 c1 : List Bool} {p : Params} (hp : computeTreeSizes xs0.length = .ok p) (hT : T.Ok w t f p) (hn : 2 ≤ xs0.length)
    (hx : xs1.length = xs0.length) (h0 : c0.length = xs0.length) (h1 : c1.length = xs0.length) (hb : c0[0]? = c1[0]?) :
    ∃ o0 o1 res, aggTreeGmw T w t xs0 xs1 c0 c1 = .ok (o0, o1) ∧ pTree f 0 (List.zipWith (· ^^^ ·) xs0 xs1) (List.zipWith (· ^^ ·) c0 c1) = .ok res ∧
      List.zipWith (· ^^^ ·) o0 o1 = res.map (pick t) := by
  obtain ⟨o0, o1, e, l0, l1, e'⟩ := aggTreeGmw_eq hp hT hn hx h0 h1
  obtain ⟨res, r1, r2⟩ := C29_agrees ha (0 : BitVec w) t (xs := List.zipWith (· ^^^ ·) xs0 xs1) (c := List.zipWith (· ^^ ·) c0 c1) (by simp [hx]; omega) (by simp [hx, h0, h1])
    (by rw [List.getElem?_zipWith, hb, List.getElem?_eq_getElem (by omega)]; simp)
  rw [e'] at r2
  exact ⟨o0, o1, res, e, r1, Except.ok.inj r2⟩

/-- **C27 on shares, with the protocol.** The rows that the two parties get together are the aggregates of the segments that the shared control bits mark. -/
theorem C27_gmw {w : Nat} {t : AggType} {f : BitVec w → BitVec w → BitVec w} (ha : ∀ a b c, f (f a b) c = f a (f b c)) {T : TreeEnv}
    {xs0 xs1 : List (BitVec w)} {c0 c1 : List Bool} {p : Params} (hp : computeTreeSizes xs0.length = .ok p) (hT : T.Ok w t f p) (hn : 2 ≤ xs0.length)
    (hx : xs1.length = xs0.length) (h0 : c0.length = xs0.length) (h1 : c1.length = xs0.length) (hb : c0[0]? = c1[0]?) :
    ∃ o0 o1, aggTreeGmw T w t xs0 xs1 c0 c1 = .ok (o0, o1) ∧ o0.length = xs0.length ∧ o1.length = xs0.length ∧
      ∀ s e i, IsSegment (List.zipWith (· ^^ ·) c0 c1) xs0.length s e → s ≤ i → i ≤ e → ∃ a b, o0[i]? = some a ∧ o1[i]? = some b ∧
        fold1 f (partOf t (List.zipWith (· ^^^ ·) xs0 xs1) s e i) = some (a ^^^ b) := by
  obtain ⟨o0, o1, e, l0, l1, e'⟩ := aggTreeGmw_eq hp hT hn hx h0 h1
  have zl : (List.zipWith (· ^^^ ·) xs0 xs1).length = xs0.length := by simp [hx]
  obtain ⟨out, r1, r2, r3⟩ := C27_shared ha (0 : BitVec w) t (xs := List.zipWith (· ^^^ ·) xs0 xs1) (c := List.zipWith (· ^^ ·) c0 c1) (by omega) (by simp [hx, h0, h1])
    (by rw [List.getElem?_zipWith, hb, List.getElem?_eq_getElem (by omega)]; simp)
  rw [e'] at r1
  obtain rfl := Except.ok.inj r1
  refine ⟨o0, o1, e, l0, l1, fun s e i hs h1 h2 => ?_⟩
  obtain ⟨y, y1, y2⟩ := r3 s e i (by rw [zl]; exact hs) h1 h2
  have hi : i < xs0.length := by have := hs.2.1; omega
  refine ⟨o0[i], o1[i], List.getElem?_eq_getElem _, List.getElem?_eq_getElem _, ?_⟩
  rw [y2, ← y1, List.getElem?_zipWith, List.getElem?_eq_getElem (by omega), List.getElem?_eq_getElem (by omega)]

/-- Twenty rows of five bits, to be concatenated in OR, with control bits that are not zero on either side alone. -/
example (padIn : Nat → Nat → Nat → Bool) : ∃ T : TreeEnv, ∃ o0 o1, aggTreeGmw T 5 .full (List.replicate 20 3) (List.replicate 20 6)
    (List.replicate 20 true) (List.replicate 10 true ++ List.replicate 10 false) = .ok (o0, o1) ∧ List.zipWith (· ^^^ ·) o0 o1 = List.replicate 20 5 := by
  obtain ⟨k, R, r, c, e, -⟩ := sizes_ok (n := 20) (by omega)
  obtain ⟨T, hT⟩ := treeEnv_exists (w := 5) (by omega) .full (· ||| ·) (n := 20) (by omega) e (fun _ _ => 0) (fun _ _ => true) padIn
  obtain ⟨o0, o1, h1, -, -, h2⟩ := aggTreeGmw_eq (xs0 := List.replicate 20 3) (xs1 := List.replicate 20 6) (c0 := List.replicate 20 true)
    (c1 := List.replicate 10 true ++ List.replicate 10 false) e hT (by simp) (by simp) (by simp) (by simp)
  refine ⟨T, o0, o1, h1, ?_⟩
  have : aggTree .full (· ||| ·) (0 : BitVec 5) (List.zipWith (· ^^^ ·) (List.replicate 20 3) (List.replicate 20 6))
    (List.zipWith (· ^^ ·) (List.replicate 20 true) (List.replicate 10 true ++ List.replicate 10 false)) = .ok (List.replicate 20 5) := by decide +kernel
  rw [this] at h2
  exact (Except.ok.inj h2).symm

end Agg
end SecJoin
