import Verif.Join.OmRemove
import Verif.Join.OmGmwProps
import Verif.TableOps.GroupByProps
import Mathlib.Tactic.IntervalCases
/-!
# C32 with the removal of inactive rows, and empty tables
-/
namespace SecJoin
namespace OmJoin
open Extract (revRow)
open Radix (PreOk)

/-! ## Specification -/

/-- The first left row that belongs to the right row `r`. -/
def matchOf (nL : Nat) (same : Nat → Nat → Prop) [DecidableRel same] (r : Nat) : Option Nat := (List.range nL).find? fun l => same l r

/-- The selected columns of a pair of rows. -/
def pairRow (q0 q1 : Query) (l r : Nat) : List Row := List.zipWith (fun a b => shown a.2 b.2 (if a.1 then l else r)) q0.select q1.select

/-- The rows of the join: each right row with its left row, if there is one. -/
def joinRows (nL nR : Nat) (same : Nat → Nat → Prop) [DecidableRel same] (q0 q1 : Query) : List (List Row) :=
  (List.range nR).filterMap fun r => (matchOf nL same r).map fun l => pairRow q0 q1 l r

/-! ## Lemmas -/

theorem bind_inv {α β : Type} {x : Res α} {f : α → Res β} {b : β} (h : (x >>= f) = .ok b) : ∃ a, x = .ok a ∧ f a = .ok b := by
  cases x with
  | error e => cases h
  | ok a => exact ⟨a, rfl, h⟩

theorem mapRes_inv {α β : Type} {f : α → Res β} {P : β → Prop} (hP : ∀ x y, f x = .ok y → P y) : ∀ {l : List α} {r : List β}, mapRes f l = .ok r →
    r.length = l.length ∧ ∀ y ∈ r, P y
  | [], r, h => by
    injection h with h; subst h
    exact ⟨rfl, by simp⟩
  | a :: l, r, h => by
    obtain ⟨x, h1, h⟩ := bind_inv h
    obtain ⟨xs, h2, h⟩ := bind_inv h
    injection h with h; subst h
    obtain ⟨h3, h4⟩ := mapRes_inv hP h2
    refine ⟨by simp [h3], fun y hy => ?_⟩
    rcases List.mem_cons.mp hy with rfl | hy
    · exact hP _ _ h1
    · exact h4 y hy

/-- What the output columns are. -/
theorem outCols_inv {data : List Row} : ∀ {s : List (Bool × Column)} {off : Nat} {cols : List Column}, outCols data off s = .ok cols →
    List.Forall₂ (fun a o => o.info = a.2.info ∧ if a.1 then o.data.bits = a.2.info.bits ∧ o.data.cols = colBytes a.2 ∧
      Shape data.length (colBytes a.2) o.data.rows else o = a.2) s cols
  | [], _, cols, h => by
    injection h with h; subst h
    exact .nil
  | (true, c) :: s, off, cols, h => by
    obtain ⟨rows, h1, h⟩ := bind_inv h
    obtain ⟨t, h2, h⟩ := bind_inv h
    injection h with h; subst h
    obtain ⟨h3, h4⟩ := mapRes_inv (P := fun r => r.length = colBytes c) (fun x y hy => by
      unfold slice at hy
      split at hy
      · injection hy with hy; subst hy
        simp; omega
      · cases hy) h1
    exact .cons ⟨rfl, by simpa using ⟨h3, h4⟩⟩ (outCols_inv h2)
  | (false, c) :: s, off, cols, h => by
    obtain ⟨t, h2, h⟩ := bind_inv h
    injection h with h; subst h
    exact .cons ⟨rfl, by simp⟩ (outCols_inv h2)

theorem getOutput_inv {q : Query} {data : List Row} {t : Table} (h : getOutput q data = .ok t) :
    List.Forall₂ (fun a o => o.info = a.2.info ∧ if a.1 then o.data.bits = a.2.info.bits ∧ o.data.cols = colBytes a.2 ∧
      Shape t.isActive.length (colBytes a.2) o.data.rows else o = a.2) q.select t.cols := by
  unfold getOutput at h
  simp only [] at h
  obtain ⟨cols, h1, h⟩ := bind_inv h
  obtain ⟨act, h2, h⟩ := bind_inv h
  injection h with h; subst h
  have := (mapRes_inv (P := fun _ => True) (fun _ _ _ => trivial) h2).1
  rw [show (⟨act, cols⟩ : Table).isActive.length = (data.drop q.leftKey.data.rows.length).length from this]
  exact outCols_inv h1

theorem join_inv {L cs : Nat} {enc : Row → Row} {q0 q1 : Query} {p0 p1 : ComposedPerm} {r : Rnd} {t0 t1 : Table}
    (h : join L cs enc q0 q1 p0 p1 r = .ok (t0, t1)) : ∃ v0 v1, getOutput q0 v0 = .ok t0 ∧ getOutput q1 v1 = .ok t1 := by
  unfold join at h
  obtain ⟨k0, -, h⟩ := bind_inv h
  obtain ⟨k1, -, h⟩ := bind_inv h
  obtain ⟨⟨s0, s1⟩, -, h⟩ := bind_inv h
  unfold joinSorted at h
  obtain ⟨_, -, h⟩ := bind_inv h
  obtain ⟨_, -, h⟩ := bind_inv h
  obtain ⟨_, -, h⟩ := bind_inv h
  obtain ⟨_, -, h⟩ := bind_inv h
  obtain ⟨⟨_, _⟩, -, h⟩ := bind_inv h
  obtain ⟨⟨_, _, _, _⟩, -, h⟩ := bind_inv h
  obtain ⟨_, -, h⟩ := bind_inv h
  obtain ⟨_, -, h⟩ := bind_inv h
  obtain ⟨⟨_, _, v0, v1⟩, -, h⟩ := bind_inv h
  obtain ⟨o0, h0, h⟩ := bind_inv h
  obtain ⟨o1, h1, h⟩ := bind_inv h
  injection h with h
  injection h with ha hb
  subst ha hb
  exact ⟨_, _, h0, h1⟩

/-- The output of a party is a well-formed table with the selected columns. -/
theorem out_wf {nL nR : Nat} {s : List (Bool × Column)} {t : Table} (h : List.Forall₂ (fun a o => o.info = a.2.info ∧
      if a.1 then o.data.bits = a.2.info.bits ∧ o.data.cols = colBytes a.2 ∧ Shape t.isActive.length (colBytes a.2) o.data.rows
      else o = a.2) s t.cols) (hl : t.isActive.length = nR) (hw : ∀ a ∈ s, a.2.WF (if a.1 then nL else nR))
    (hnames : (s.map (·.2.info.name)).Nodup) (hne : s ≠ []) : t.WF nR ∧ t.getColumnInfo = s.map (·.2.info) := by
  have hi : t.getColumnInfo = s.map (·.2.info) := by
    unfold Table.getColumnInfo
    clear hw hnames hne
    have h' := h.imp (fun _ _ h => h.1)
    generalize t.cols = cols at h'
    clear h
    induction h' with
    | nil => rfl
    | cons h _ ih => rw [List.map_cons, List.map_cons, ih, h]
  refine ⟨⟨?_, ?_, ?_, Or.inr hl⟩, hi⟩
  · intro c hc
    obtain ⟨i, hi', rfl⟩ := List.getElem_of_mem hc
    have hi2 : i < s.length := by rw [h.length_eq]; exact hi'
    obtain ⟨e, h⟩ := (List.forall₂_iff_get.mp h).2 i hi2 hi'
    have w := hw _ (List.get_mem s ⟨i, hi2⟩)
    simp only [List.get_eq_getElem] at e h w
    by_cases hb : s[i].1
    · rw [if_pos hb] at h w
      obtain ⟨h1, h2, h3⟩ := h
      rw [hl] at h3
      exact ⟨by rw [h1, e], by rw [h2, e]; rfl, by rw [e]; exact h3, by rw [e]; exact w.str⟩
    · rw [if_neg hb] at h w
      rw [h]; exact w
  · have : t.cols.map (·.info.name) = s.map (·.2.info.name) := by
      have := congrArg (List.map (·.name)) hi
      simp only [Table.getColumnInfo, List.map_map] at this
      exact this
    rw [this]; exact hnames
  · intro hnil
    rw [hnil] at h
    cases h
    exact absurd rfl hne

theorem matchOf_some {nL : Nat} {same : Nat → Nat → Prop} [DecidableRel same] {r l : Nat} (h : matchOf nL same r = some l) :
    l < nL ∧ same l r ∧ ∀ l', l' < l → ¬ same l' r := by
  obtain ⟨h1, as, bs, h2, h3⟩ := List.find?_eq_some_iff_append.mp h
  have hl : as.length < nL := by
    have := congrArg List.length h2
    simp at this; omega
  have e : as.length = l := by
    have := congrArg (fun x => x[as.length]?) h2
    simpa [List.getElem?_range hl] using this
  refine ⟨by omega, by simpa using h1, fun l' hl' hs => ?_⟩
  have hm : l' ∈ as := by
    have := congrArg (fun x => x[l']?) h2
    rw [List.getElem?_range (by omega), List.getElem?_append_left (by omega)] at this
    exact List.mem_of_getElem? this.symm
  simpa [hs] using h3 l' hm

theorem matchOf_none {nL : Nat} {same : Nat → Nat → Prop} [DecidableRel same] {r : Nat} (h : matchOf nL same r = none) :
    ∀ l, l < nL → ¬ same l r := by
  intro l hl
  simpa using List.find?_eq_none.mp h l (List.mem_range.mpr hl)

theorem filterMap_filter_map {α β : Type} (p : α → Bool) (g : α → β) (f : α → Option β) : ∀ l : List α,
    (∀ a ∈ l, f a = if p a then some (g a) else none) → (l.filter p).map g = l.filterMap f
  | [], _ => rfl
  | a :: l, h => by
    have ih := filterMap_filter_map p g f l (fun b hb => h b (List.mem_cons_of_mem _ hb))
    have ha := h a (List.mem_cons_self)
    cases hp : p a <;> simp [hp] at ha <;> simp [hp, ha, ih]

/-! ## C32 with the removal -/

/-- The revealed row of the output is the pair of rows. -/
theorem OneToMany.row {nL nR : Nat} {same : Nat → Nat → Prop} {q0 q1 : Query} {t0 t1 : Table} (h : OneToMany nL nR same q0 q1 t0 t1)
    (hq : SameQuery nL nR q0 q1) {l r : Nat} (hr : r < nR) (hl : l < nL) (hs : same l r) (hf : ∀ l', l' < l → ¬ same l' r) :
    revRow t0 t1 r = pairRow q0 q1 l r := by
  have hlen := hq.sel.length_eq
  apply List.ext_getElem
  · simp [revRow, pairRow, h.cols0, h.cols1]
  · intro i h1 h2
    simp only [revRow, List.length_zipWith, h.cols0, h.cols1] at h1
    have i0 : i < q0.select.length := by omega
    have i1 : i < q1.select.length := by omega
    have hb := ((List.forall₂_iff_get.mp hq.sel).2 i i0 i1).1
    simp only [List.get_eq_getElem] at hb
    have e0 := List.getElem?_eq_getElem i0
    have e1 := List.getElem?_eq_getElem i1
    simp only [revRow, pairRow, List.getElem_zipWith]
    obtain ⟨a0, c0, ha⟩ : ∃ b c, q0.select[i] = (b, c) := ⟨_, _, rfl⟩
    obtain ⟨a1, c1, hc⟩ : ∃ b c, q1.select[i] = (b, c) := ⟨_, _, rfl⟩
    rw [ha] at hb e0 ⊢
    rw [hc] at hb e1 ⊢
    simp only [] at hb
    subst hb
    cases a0 with
    | true =>
      obtain ⟨x0, x1, g0, g1, -, -, g⟩ := (h.hit r hr l hl hs hf).2 i c0 c1 e0 e1
      rw [(List.getElem?_eq_some_iff.mp g0).2, (List.getElem?_eq_some_iff.mp g1).2]
      exact g
    | false =>
      obtain ⟨g0, g1⟩ := h.right i c0 c1 e0 e1
      rw [(List.getElem?_eq_some_iff.mp g0).2, (List.getElem?_eq_some_iff.mp g1).2]
      rfl

/-- **C32 with the removal of inactive rows**: what remains are the pairs of a right row and its left row, in some order, if the
correlation of the removal has enough bytes per row and no two selected columns have the same name. -/
theorem C32_removed {nL nR L cs W0 o0 W1 o1 : Nat} {same : Nat → Nat → Prop} [DecidableRel same] {enc : Row → Row} {q0 q1 : Query}
    {p0 p1 e0 e1 : ComposedPerm} {rnd : Rnd} {t0 t1 : Table}
    (hj : join L cs enc q0 q1 p0 p1 rnd = .ok (t0, t1)) (h : OneToMany nL nR same q0 q1 t0 t1) (hq : SameQuery nL nR q0 q1)
    (hnR : 0 < nR) (hw : ∀ a ∈ q0.select ++ q1.select, a.2.WF (if a.1 then nL else nR))
    (hinfo : q0.select.map (·.2.info) = q1.select.map (·.2.info)) (hnames : (q0.select.map (·.2.info.name)).Nodup) (hne : q0.select ≠ [])
    (hv : ValidComposed nR W0 o0 W1 o1 e0 e1) (hb0 : o0 + removeBytes q0.select ≤ W0) (hb1 : o1 + removeBytes q0.select ≤ W1) :
    ∃ u0 u1 w, joinActive L cs enc q0 q1 p0 p1 e0 e1 rnd = .ok (u0, u1) ∧ u0.isActive = [] ∧ u1.isActive = [] ∧
      u0.WF w ∧ u1.WF w ∧ u0.getColumnInfo = q0.select.map (·.2.info) ∧ u1.getColumnInfo = q0.select.map (·.2.info) ∧
      ((List.range w).map (revRow u0 u1)).Perm (joinRows nL nR same q0 q1) := by
  obtain ⟨v0, v1, g0, g1⟩ := join_inv hj
  obtain ⟨w0, i0⟩ := out_wf (getOutput_inv g0) h.rows0 (fun a ha => hw a (by simp [ha])) hnames hne
  have hnames1 : (q1.select.map (·.2.info.name)).Nodup := by
    have := congrArg (List.map (·.name)) hinfo
    simp only [List.map_map] at this
    exact this ▸ hnames
  obtain ⟨w1, i1⟩ := out_wf (getOutput_inv g1) h.rows1 (fun a ha => hw a (by simp [ha])) hnames1
    (fun hn => hne (by rw [hn] at hinfo; simpa using hinfo))
  have hbytes : 1 + Extract.infoBytes t0.getColumnInfo = removeBytes q0.select := by
    rw [i0]; unfold Extract.infoBytes removeBytes; rw [List.map_map]; rfl
  obtain ⟨u0, u1, w, e, f0, f1, -, -, -, -, hperm, hf0, hf1, -, -⟩ := Extract.C35_extract hv hnR w0 w1 (by rw [i0, i1, hinfo])
    h.rows0 h.rows1 (by rw [Nat.add_assoc, hbytes]; exact hb0) (by rw [Nat.add_assoc, hbytes]; exact hb1) t0 t1
  obtain ⟨x0, y0⟩ := hf0 (Or.inr rfl)
  obtain ⟨x1, y1⟩ := hf1 (Or.inr rfl)
  refine ⟨u0, u1, w, ?_, f0, f1, x0, x1, by rw [y0, i0], by rw [y1, i0], ?_⟩
  · unfold joinActive removeInactive
    rw [hj, ok_bind]
    simp only []
    rw [hq.r0.1, e]
  · refine hperm.trans (List.Perm.of_eq ?_)
    apply filterMap_filter_map
    intro r hr
    have hr := List.mem_range.mp hr
    cases hm : matchOf nL same r with
    | none =>
      have := (h.miss r hr (matchOf_none hm)).1
      unfold Extract.active
      rw [this]
      rfl
    | some l =>
      obtain ⟨hl, hs, hf⟩ := matchOf_some hm
      have := (h.hit r hr l hl hs hf).1
      rw [h.row hq hr hl hs hf]
      unfold Extract.active
      rw [this]
      rfl

/-- The bytes of `init` for the removal are enough. -/
theorem remove_budget (s : List (Bool × Column)) : removeBytes s ≤ Extract.budget (removeBytes s) := by
  unfold Extract.budget divCeil
  omega

/-- **C32 with the removal**, for keys of `2^k` bits that are sorted as they are, with the correlation bytes of `init` for both
permutations. Missing: other widths, see `C32_false`, and keys replaced by a random code of them (`C32_removed` with `C32_join`). -/
theorem C32_removed_partial {nL nR L cs k W V : Nat} {enc : Row → Row} {q0 q1 : Query} (hq : SameQuery nL nR q0 q1)
    (hnL : 0 < nL) (hnR : 0 < nR) (hn32 : nL + nR ≤ 2 ^ 32) (h1 : 1 ≤ L) (h8 : L ≤ 8)
    (hk : q0.leftKey.info.bits = 2 ^ k) (hcs : 2 ^ k ≤ cs)
    (hpadL : ∀ i, i < nL → ∀ j, 2 ^ k ≤ j → bitOf (shown q0.leftKey q1.leftKey i) j = false)
    (hpadR : ∀ i, i < nR → ∀ j, 2 ^ k ≤ j → bitOf (shown q0.rightKey q1.rightKey i) j = false)
    {r : Rnd} (hf : r.first.Ok (nL + nR) L) (hlen : divCeil (2 ^ k) L ≤ r.rest.length + 1)
    (hr : ∀ s ∈ r.rest, PreOk (nL + nR) L s) {p0 p1 e0 e1 : ComposedPerm}
    (hW : W = 16 * ((permBytes (8 * dataBytes q0.select (2 ^ k)) (2 ^ k) + 15) / 16))
    (hp : ValidComposed (nL + nR) W 0 W 0 p0 p1)
    (hw : ∀ a ∈ q0.select ++ q1.select, a.2.WF (if a.1 then nL else nR))
    (hinfo : q0.select.map (·.2.info) = q1.select.map (·.2.info)) (hnames : (q0.select.map (·.2.info.name)).Nodup) (hne : q0.select ≠ [])
    (hV : V = Extract.budget (removeBytes q0.select)) (hv : ValidComposed nR V 0 V 0 e0 e1) :
    ∃ u0 u1 w, joinActive L cs enc q0 q1 p0 p1 e0 e1 r = .ok (u0, u1) ∧ u0.isActive = [] ∧ u1.isActive = [] ∧
      u0.WF w ∧ u1.WF w ∧ u0.getColumnInfo = q0.select.map (·.2.info) ∧ u1.getColumnInfo = q0.select.map (·.2.info) ∧
      ((List.range w).map (revRow u0 u1)).Perm
        (joinRows nL nR (fun a b => shown q0.leftKey q1.leftKey a = shown q0.rightKey q1.rightKey b) q0 q1) := by
  obtain ⟨t0, t1, e, h⟩ := C32_join_partial (cs := cs) (enc := enc) hq hnL hnR hn32 h1 h8 hk hcs hpadL hpadR hf hlen hr hW hp
  have := remove_budget q0.select
  exact C32_removed e h hq hnR hw hinfo hnames hne hv (by omega) (by omega)

/-- A run with GMW is a run with the functionality of GMW, for keys of `2^k` bits with the correlation bytes of `init`. -/
theorem joinGmw_run {nL nR L cs k W : Nat} {enc : Row → Row} {q0 q1 : Query} (hq : SameQuery nL nR q0 q1)
    (hnL : 0 < nL) (hnR : 0 < nR) (hn32 : nL + nR ≤ 2 ^ 32) (h1 : 1 ≤ L) (h8 : L ≤ 8)
    (hk : q0.leftKey.info.bits = 2 ^ k) (hcs : 2 ^ k ≤ cs)
    {G : GmwEnv} (hG : G.Ok (nL + nR) (2 ^ k) L (dataBytes q0.select (2 ^ k))) {p0 p1 : ComposedPerm}
    (hW : W = 16 * ((permBytes (8 * dataBytes q0.select (2 ^ k)) (2 ^ k) + 15) / 16))
    (hp : ValidComposed (nL + nR) W 0 W 0 p0 p1) :
    ∃ r : Rnd, joinGmw L cs enc q0 q1 p0 p1 G = join L cs enc q0 q1 p0 p1 r ∧ r.first.Ok (nL + nR) L ∧
      divCeil (2 ^ k) L ≤ r.rest.length + 1 ∧ ∀ s ∈ r.rest, PreOk (nL + nR) L s := by
  have hcb : colBytes q0.leftKey = divCeil (2 ^ k) 8 := by unfold colBytes; rw [hk]
  have hs0 := shape_append hq.l0 hq.r0
  have hs1 := shape_append hq.l1 hq.r1
  rw [hcb] at hs0 hs1
  have hl0 : loadKeys cs enc q0.leftKey q0.rightKey = .ok ⟨2 ^ k, divCeil (2 ^ k) 8, q0.leftKey.data.rows ++ q0.rightKey.data.rows⟩ :=
    loadKeys_ok.mpr ⟨hq.rb0.symm, by rw [hq.l0.1]; exact hnL, by rw [hq.r0.1]; exact hnR, by rw [if_pos (by omega), hk]⟩
  have hl1 : loadKeys cs enc q1.leftKey q1.rightKey = .ok ⟨2 ^ k, divCeil (2 ^ k) 8, q1.leftKey.data.rows ++ q1.rightKey.data.rows⟩ :=
    loadKeys_ok.mpr ⟨by rw [hq.lb, hq.rb1], by rw [hq.l1.1]; exact hnL, by rw [hq.r1.1]; exact hnR,
      by rw [if_pos (by rw [hq.lb]; omega), hq.lb, hk]⟩
  have hbud := C33_generated q0.select (keyBits := 2 ^ k) (keySize := 2 ^ k) (by unfold divCeil; omega)
  rw [← hW] at hbud
  obtain ⟨r, e, hf, hl, hr⟩ := joinGmw_eq (cs := cs) (enc := enc) hq rfl (by omega) hn32 h1 h8 hl0 hl1 (Nat.two_pow_pos k) hs0 hs1
    (by rw [hk]; exact hG) hp (by rw [hk]; omega) (by rw [hk]; omega)
  exact ⟨r, e, hf, by rw [hl]; exact hG.rounds, hr⟩

/-- **C32 with the removal**, with all circuits of the join run by the protocol. Missing: as in `C32_removed_partial`. -/
theorem C32_gmw_removed_partial {nL nR L cs k W V : Nat} {enc : Row → Row} {q0 q1 : Query} (hq : SameQuery nL nR q0 q1)
    (hnL : 0 < nL) (hnR : 0 < nR) (hn32 : nL + nR ≤ 2 ^ 32) (h1 : 1 ≤ L) (h8 : L ≤ 8)
    (hk : q0.leftKey.info.bits = 2 ^ k) (hcs : 2 ^ k ≤ cs)
    (hpadL : ∀ i, i < nL → ∀ j, 2 ^ k ≤ j → bitOf (shown q0.leftKey q1.leftKey i) j = false)
    (hpadR : ∀ i, i < nR → ∀ j, 2 ^ k ≤ j → bitOf (shown q0.rightKey q1.rightKey i) j = false)
    {G : GmwEnv} (hG : G.Ok (nL + nR) (2 ^ k) L (dataBytes q0.select (2 ^ k))) {p0 p1 e0 e1 : ComposedPerm}
    (hW : W = 16 * ((permBytes (8 * dataBytes q0.select (2 ^ k)) (2 ^ k) + 15) / 16))
    (hp : ValidComposed (nL + nR) W 0 W 0 p0 p1)
    (hw : ∀ a ∈ q0.select ++ q1.select, a.2.WF (if a.1 then nL else nR))
    (hinfo : q0.select.map (·.2.info) = q1.select.map (·.2.info)) (hnames : (q0.select.map (·.2.info.name)).Nodup) (hne : q0.select ≠ [])
    (hV : V = Extract.budget (removeBytes q0.select)) (hv : ValidComposed nR V 0 V 0 e0 e1) :
    ∃ u0 u1 w, joinActiveGmw L cs enc q0 q1 p0 p1 e0 e1 G = .ok (u0, u1) ∧ u0.isActive = [] ∧ u1.isActive = [] ∧
      u0.WF w ∧ u1.WF w ∧ u0.getColumnInfo = q0.select.map (·.2.info) ∧ u1.getColumnInfo = q0.select.map (·.2.info) ∧
      ((List.range w).map (revRow u0 u1)).Perm
        (joinRows nL nR (fun a b => shown q0.leftKey q1.leftKey a = shown q0.rightKey q1.rightKey b) q0 q1) := by
  obtain ⟨r, e, hf, hl, hr⟩ := joinGmw_run (cs := cs) (enc := enc) hq hnL hnR hn32 h1 h8 hk hcs hG hW hp
  have := C32_removed_partial (cs := cs) (enc := enc) hq hnL hnR hn32 h1 h8 hk hcs hpadL hpadR hf hl hr hW hp hw hinfo hnames hne hV hv
  unfold joinActive at this
  unfold joinActiveGmw
  rw [e]
  exact this

/-- The hypotheses of C32 with the removal: the query of `exQ0`, `exQ1` with other column names and a second right row without a
left row. -/
def exR0 : Query := ⟨⟨⟨[1], .int, 4⟩, ⟨4, 1, [[5], [9]]⟩⟩, ⟨⟨[2], .int, 4⟩, ⟨4, 1, [[7], [3]]⟩⟩,
  [(true, ⟨⟨[3], .int, 8⟩, ⟨8, 1, [[20], [21]]⟩⟩), (false, ⟨⟨[4], .int, 8⟩, ⟨8, 1, [[22], [23]]⟩⟩)]⟩
def exR1 : Query := ⟨⟨⟨[1], .int, 4⟩, ⟨4, 1, [[3], [8]]⟩⟩, ⟨⟨[2], .int, 4⟩, ⟨4, 1, [[1], [0]]⟩⟩,
  [(true, ⟨⟨[3], .int, 8⟩, ⟨8, 1, [[120], [121]]⟩⟩), (false, ⟨⟨[4], .int, 8⟩, ⟨8, 1, [[122], [1]]⟩⟩)]⟩

example : ∃ (r : Rnd) (p0 p1 e0 e1 : ComposedPerm), SameQuery 2 2 exR0 exR1 ∧ exR0.leftKey.info.bits = 2 ^ 2 ∧
    (∀ i, i < 2 → ∀ j, 2 ^ 2 ≤ j → bitOf (shown exR0.leftKey exR1.leftKey i) j = false) ∧
    (∀ i, i < 2 → ∀ j, 2 ^ 2 ≤ j → bitOf (shown exR0.rightKey exR1.rightKey i) j = false) ∧
    r.first.Ok 4 2 ∧ divCeil (2 ^ 2) 2 ≤ r.rest.length + 1 ∧ (∀ s ∈ r.rest, PreOk 4 2 s) ∧
    ValidComposed (2 + 2) (Extract.budget (permBytes (8 * dataBytes exR0.select (2 ^ 2)) (2 ^ 2))) 0
      (Extract.budget (permBytes (8 * dataBytes exR0.select (2 ^ 2)) (2 ^ 2))) 0 p0 p1 ∧
    (∀ a ∈ exR0.select ++ exR1.select, a.2.WF (if a.1 then 2 else 2)) ∧
    exR0.select.map (·.2.info) = exR1.select.map (·.2.info) ∧ (exR0.select.map (·.2.info.name)).Nodup ∧ exR0.select ≠ [] ∧
    ValidComposed 2 (Extract.budget (removeBytes exR0.select)) 0 (Extract.budget (removeBytes exR0.select)) 0 e0 e1 ∧
    joinRows 2 2 (fun a b => shown exR0.leftKey exR1.leftKey a = shown exR0.rightKey exR1.rightKey b) exR0 exR1 = [[[108], [108]]] := by
  obtain ⟨p0, p1, hp⟩ := GroupBy.anyComposed (2 + 2) (permBytes (8 * dataBytes exR0.select (2 ^ 2)) (2 ^ 2))
  obtain ⟨c0, c1, hc⟩ := GroupBy.anyComposed 4 9
  obtain ⟨e0, e1, he⟩ := GroupBy.anyComposed 2 (removeBytes exR0.select)
  have hpad : ∀ x : Byte, x.toNat < 16 → ∀ j, 2 ^ 2 ≤ j → bitOf [x] j = false := by
    intro x hx j hj
    unfold bitOf
    by_cases h8 : j < 8
    · interval_cases j <;> revert x <;> decide
    · rw [List.getD_eq_getElem?_getD, List.getElem?_eq_none (by simp; omega)]
      simp
  refine ⟨⟨GroupBy.anyRound 4 2, [(c0, c1, GroupBy.anyRound 4 2)], fun _ => [], fun _ => false⟩, p0, p1, e0, e1, ?_, rfl, ?_, ?_, GroupBy.anyRound_ok 4 2,
    by simp [divCeil], ?_, hp, ?_, by decide, by decide, by decide, he, by decide⟩
  · refine ⟨?_, ?_, ?_, ?_, rfl, rfl, rfl, ?_⟩
    · unfold Shape; decide
    · unfold Shape; decide
    · unfold Shape; decide
    · unfold Shape; decide
    · refine List.Forall₂.cons ⟨rfl, rfl, ?_, ?_⟩ (List.Forall₂.cons ⟨rfl, rfl, ?_, ?_⟩ List.Forall₂.nil) <;> unfold Shape <;> decide
  · intro i hi j hj
    interval_cases i
    · exact hpad 6 (by decide) j hj
    · exact hpad 1 (by decide) j hj
  · intro i hi j hj
    interval_cases i
    · exact hpad 6 (by decide) j hj
    · exact hpad 3 (by decide) j hj
  · intro s hs
    rw [List.mem_singleton] at hs
    subst hs
    exact ⟨16, 0, 16, 0, hc, by decide, by decide, GroupBy.anyRound_ok 4 2⟩
  · intro a ha
    rcases List.mem_append.mp ha with h | h <;> simp only [exR0, exR1, List.mem_cons, List.not_mem_nil, or_false] at h <;> rcases h with rfl | rfl <;>
      exact ⟨rfl, rfl, by unfold Shape; decide, by decide⟩

/-! ## Empty tables -/

/-- **C32 for empty tables**: if one of the tables has no rows, the size of the keys is computed from the logarithm of zero and
the join is undefined, with or without the removal and however the circuits are run. -/
theorem C32_empty {L cs : Nat} {enc : Row → Row} {q0 q1 : Query} (hb : q0.leftKey.info.bits = q0.rightKey.info.bits)
    (he : q0.leftKey.data.rows = [] ∨ q0.rightKey.data.rows = []) (p0 p1 e0 e1 : ComposedPerm) (r : Rnd) (G : GmwEnv) :
    join L cs enc q0 q1 p0 p1 r = .error .ub ∧ joinGmw L cs enc q0 q1 p0 p1 G = .error .ub ∧
      joinActive L cs enc q0 q1 p0 p1 e0 e1 r = .error .ub ∧ joinActiveGmw L cs enc q0 q1 p0 p1 e0 e1 G = .error .ub := by
  have h : loadKeys cs enc q0.leftKey q0.rightKey = .error .ub := by
    unfold loadKeys
    rcases he with he | he <;> simp [hb, he, throwIf]
  have h1 : join L cs enc q0 q1 p0 p1 r = .error .ub := by unfold join; rw [h]; rfl
  have h2 : joinGmw L cs enc q0 q1 p0 p1 G = .error .ub := by unfold joinGmw; rw [h]; rfl
  refine ⟨h1, h2, ?_, ?_⟩
  · unfold joinActive removeInactive; rw [h1]; rfl
  · unfold joinActiveGmw removeInactive; rw [h2]; rfl

end OmJoin
end SecJoin
