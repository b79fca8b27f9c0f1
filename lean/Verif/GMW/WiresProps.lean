import Verif.GMW.WiresLemmas
/-!
# C71: the memory of the wires of a GMW evaluation

Inputs are copied (`setInput`, `setZeroInput`) or mapped (`mapInput`), outputs may be mapped (`mapOutput`), `run` gives memory to all
other wires, reads and writes words through pointers, and `getOutput` copies outputs.
-/
namespace SecJoin
namespace Gmw
namespace Wires

/-! ## What the calls should mean -/

/-- The input that a call sets and its bits: bit `j` of instance `r`. -/
def Op.value (heap : Nat → List Block) : Op → Option (Nat × (Nat → Nat → Bool))
  | .setInput i rows _ _ => some (i, fun j r => ((rows.getD r []).getD (j / 8) 0).getLsbD (j % 8))
  | .setZero i => some (i, fun _ _ => false)
  | .mapInput i d => some (i, matBit (heap d.reg) (d.cols / 16))
  | .mapOutput _ _ => none

/-- The output that a call maps. -/
def Op.out : Op → Option (Nat × TMat)
  | .mapOutput i d => some (i, d)
  | _ => none

/-- The matrix of the caller used by a call. -/
def Op.mat : Op → Option TMat
  | .mapInput _ d => some d
  | .mapOutput _ d => some d
  | _ => none

def addValue (heap : Nat → List Block) (v : Nat → Option (Nat → Nat → Bool)) (op : Op) : Nat → Option (Nat → Nat → Bool) :=
  match op.value heap with
  | some (i, f) => Function.update v i (some f)
  | none => v

def addOut (o : Nat → Option TMat) (op : Op) : Nat → Option TMat :=
  match op.out with
  | some (i, d) => Function.update o i (some d)
  | none => o

/-- The last value given to each input. -/
def values (heap : Nat → List Block) (ops : List Op) : Nat → Option (Nat → Nat → Bool) := ops.foldl (addValue heap) fun _ => none

/-- The matrix each output is mapped to. -/
def mapped (ops : List Op) : Nat → Option TMat := ops.foldl addOut fun _ => none

/-- The circuit and the matrices of the caller: no wire is in two bundles, the matrices are large enough and no two of them share
memory. -/
structure Setup (wires : Nat) (ins outs : List (List Nat)) (heap : Nat → List Block) (next : Nat) (ops : List Op) : Prop where
  bundles : Bundles wires ins outs
  mats : ∀ d ∈ ops.filterMap Op.mat, MatOk heap next d
  distinct : ((ops.filterMap Op.mat).map TMat.reg).Nodup

/-- A sequence of writes to wires, as `run` performs them. -/
def writes : List (Nat × Word) → St → Res St
  | [], s => .ok s
  | (k, w) :: l, s => do
    let s ← setWire s k w
    writes l s

/-- The same on a list of words, the state of the model of `run` in GMW/Model.lean. -/
def writesTo (l : List (Nat × Word)) (ws : List Word) : List Word := l.foldl (fun ws p => ws.set p.1 p.2) ws

/-! ## The calls keep the invariant -/

theorem setInput_inv {junk : Nat → Nat → Block} {pad : Nat → Nat → Bool} {s s' : St} {i : Nat} {rows : List (List (BitVec 8))} {cols align : Nat}
    (hi : Inv s) (h : setInput junk pad s i rows cols align = .ok s') :
    ∃ b p s1, s.ins[i]? = some b ∧ memView junk s b = .ok (p, s1) ∧ rows.length = s.n ∧ storeRows (column s.w pad rows) p 0 b.length s1 = .ok s' := by
  unfold setInput at h
  by_cases hl : s.ins.length ≤ i
  · rw [decide_eq_true hl] at h
    cases h
  · rw [decide_eq_false hl, throwIf_false, ok_bind, rd_ok (by omega), ok_bind] at h
    cases hm : memView junk s s.ins[i] with
    | error _ => rw [hm] at h; cases h
    | ok q =>
      obtain ⟨p, s1⟩ := q
      obtain ⟨-, hS, -⟩ := memView_inv hi hm
      rw [hm, ok_bind] at h
      simp only at h
      by_cases h1 : (s.ins[i].length + align * 8 - 1) / (align * 8) = cols / align
      · by_cases h2 : rows.length = s1.n
        · rw [h1, h2] at h
          simp only [bne_self_eq_false, throwIf_false, ok_bind] at h
          rw [hS.w] at h
          exact ⟨_, p, s1, List.getElem?_eq_getElem (by omega), hm, h2.trans hS.n, h⟩
        · rw [h1] at h
          simp [throwIf, h2, ok_bind, err_bind] at h
      · simp [throwIf, h1, err_bind] at h

theorem setZero_inv {junk : Nat → Nat → Block} {s s' : St} {i : Nat} (hi : Inv s) (h : setZero junk s i = .ok s') :
    ∃ b p s1, s.ins[i]? = some b ∧ memView junk s b = .ok (p, s1) ∧ storeRows (fun _ => List.replicate s.w 0) p 0 b.length s1 = .ok s' := by
  unfold setZero at h
  by_cases hl : s.ins.length ≤ i
  · rw [decide_eq_true hl] at h
    cases h
  · rw [decide_eq_false hl, throwIf_false, ok_bind, rd_ok (by omega), ok_bind] at h
    cases hm : memView junk s s.ins[i] with
    | error _ => rw [hm] at h; cases h
    | ok q =>
      obtain ⟨p, s1⟩ := q
      obtain ⟨-, hS, -⟩ := memView_inv hi hm
      rw [hm, ok_bind] at h
      simp only at h
      rw [hS.w] at h
      exact ⟨_, p, s1, List.getElem?_eq_getElem (by omega), hm, h⟩

theorem wbit_zero (w r : Nat) : wbit (List.replicate w 0) r = false := by
  unfold wbit
  rw [List.getD_eq_getElem?_getD, List.getElem?_replicate]
  split <;> simp

theorem lt_width {n r : Nat} (h : r < n) : r < 128 * width n := by
  unfold width divCeil
  omega

section
variable {heap0 : Nat → List Block} {next0 : Nat} {junk : Nat → Nat → Block} {pad : Nat → Nat → Bool}

theorem Good.step {v : Nat → Option (Nat → Nat → Bool)} {o : Nat → Option TMat} {used : List Nat} {s s' : St} (h : Good heap0 next0 v o used s)
    (hb : Bundles s.wires s.ins s.outs) {op : Op} (hd : ∀ d, op.mat = some d → MatOk heap0 next0 d ∧ d.reg ∉ used) (hs : step junk pad s op = .ok s') :
    Same s s' ∧ Good heap0 next0 (addValue heap0 v op) (addOut o op) ((op.mat.map TMat.reg).toList ++ used) s' := by
  cases op with
  | setInput i rows cols align =>
    obtain ⟨b, p, s1, h1, h2, h3, h4⟩ := setInput_inv h.inv hs
    obtain ⟨s2, a1, a2, a3⟩ := h.write hb h1 h2 (f := column s.w pad rows) (column_length _ _ _) (g := fun j r => rowBit (rows.getD r []) j)
      (fun j r hr => column_bit (by omega) (lt_width hr) j)
    rw [h4] at a1
    cases a1
    exact ⟨a2, a3⟩
  | setZero i =>
    obtain ⟨b, p, s1, h1, h2, h4⟩ := setZero_inv h.inv hs
    obtain ⟨s2, a1, a2, a3⟩ := h.write hb h1 h2 (f := fun _ => List.replicate s.w 0) (fun _ => List.length_replicate) (g := fun _ _ => false)
      (fun j r hr => wbit_zero _ _)
    rw [h4] at a1
    cases a1
    exact ⟨a2, a3⟩
  | mapInput i d =>
    obtain ⟨h1, h2⟩ := hd d rfl
    exact h.mapIn hb h1 h2 hs
  | mapOutput i d =>
    obtain ⟨h1, h2⟩ := hd d rfl
    exact h.mapOut hb h1 h2 hs

theorem Good.steps : ∀ (ops : List Op) {v : Nat → Option (Nat → Nat → Bool)} {o : Nat → Option TMat} {used : List Nat} {s s' : St},
    Good heap0 next0 v o used s → Bundles s.wires s.ins s.outs → (∀ d ∈ ops.filterMap Op.mat, MatOk heap0 next0 d ∧ d.reg ∉ used) →
    ((ops.filterMap Op.mat).map TMat.reg).Nodup → steps junk pad ops s = .ok s' →
    Same s s' ∧ ∃ used', Good heap0 next0 (ops.foldl (addValue heap0) v) (ops.foldl addOut o) used' s'
  | [], v, o, used, s, s', h, _, _, _, hs => by
    cases hs
    exact ⟨.refl s, used, h⟩
  | op :: ops, v, o, used, s, s', h, hb, hd, hn, hs => by
    rw [Wires.steps] at hs
    cases h1 : Wires.step junk pad s op with
    | error _ => rw [h1] at hs; cases hs
    | ok s1 =>
      rw [h1, ok_bind] at hs
      have hd1 : ∀ d, op.mat = some d → MatOk heap0 next0 d ∧ d.reg ∉ used := fun d e => hd d (by
        rw [List.filterMap_cons, e]
        simp)
      obtain ⟨a1, a2⟩ := h.step hb hd1 h1
      have hd2 : (∀ d ∈ ops.filterMap Op.mat, MatOk heap0 next0 d ∧ d.reg ∉ (op.mat.map TMat.reg).toList ++ used) ∧ ((ops.filterMap Op.mat).map TMat.reg).Nodup := by
        cases e : op.mat with
        | none =>
          rw [List.filterMap_cons, e] at hd hn
          exact ⟨hd, hn⟩
        | some d0 =>
          rw [List.filterMap_cons, e] at hd hn
          simp only [List.map_cons, List.nodup_cons] at hn
          refine ⟨fun d hdm => ⟨(hd d (by simp [hdm])).1, ?_⟩, hn.2⟩
          have h2 := (hd d (by simp [hdm])).2
          simp only [Option.map_some, Option.toList_some, List.singleton_append, List.mem_cons, not_or]
          refine ⟨fun e2 => hn.1 ?_, h2⟩
          rw [← e2]
          exact List.mem_map.2 ⟨d, hdm, rfl⟩
      obtain ⟨b1, b2⟩ := Good.steps ops a2 (by rw [a1.wires, a1.ins, a1.outs]; exact hb) hd2.1 hd2.2 hs
      exact ⟨a1.trans b1, b2⟩

theorem setup_good {n wires next : Nat} {ins outs : List (List Nat)} {heap : Nat → List Block} {ops : List Op} {s : St} (hS : Setup wires ins outs heap next ops)
    (h : steps junk pad ops (init n wires ins outs heap next) = .ok s) :
    Same (init n wires ins outs heap next) s ∧ ∃ used, Good heap next (values heap ops) (mapped ops) used s :=
  Good.steps ops (init_good n wires ins outs heap next) hS.bundles (fun d hd => ⟨hS.mats d hd, by simp⟩) hS.distinct h

end

theorem flatten_ins {L : List (List Nat)} {x : Nat} (h : x ∈ L.flatten) : ∃ (i : Nat) (b : List Nat), L[i]? = some b ∧ x ∈ b := by
  obtain ⟨b, h1, h2⟩ := List.mem_flatten.1 h
  obtain ⟨i, hi, e⟩ := List.getElem_of_mem h1
  exact ⟨i, b, by rw [List.getElem?_eq_getElem hi, e], h2⟩

/-- Calls, then the start of `run`. -/
theorem finalized {junk : Nat → Nat → Block} {pad : Nat → Nat → Bool} {n wires next : Nat} {ins outs : List (List Nat)} {heap : Nat → List Block} {ops : List Op}
    {s s' : St} (hS : Setup wires ins outs heap next ops) (h : steps junk pad ops (init n wires ins outs heap next) = .ok s) (hf : finalize junk s = .ok s') :
    Same (init n wires ins outs heap next) s ∧ Same s s' ∧ (∃ used, Good heap next (values heap ops) (mapped ops) used s) ∧
      (∀ x ∈ ins.flatten, (s.words x).isSome) ∧ Inv s' ∧ (∀ r < s.next, s'.heap r = s.heap r) ∧
      ∀ x, s'.words x = if x < wires ∧ s.words x = none then some ⟨s.next, cnt s.words x * s.w⟩ else s.words x := by
  obtain ⟨a1, used, a2⟩ := setup_good hS h
  have e1 : s.ins = ins := a1.ins
  have e2 : s.wires = wires := a1.wires
  have hb : ∀ x ∈ s.ins.flatten, x < s.wires := by
    intro x hx
    rw [e1] at hx
    rw [e2]
    exact hS.bundles.bound x (by rw [List.flatten_append]; exact List.mem_append.2 (.inl hx))
  have hset : ∀ x ∈ s.ins.flatten, (s.words x).isSome := by
    refine Classical.byContradiction fun hc => ?_
    unfold finalize at hf
    rw [(inputsSet_ok hb).2 hc] at hf
    cases hf
  obtain ⟨s2, b1, b2, b3, b4, b5, b6⟩ := finalize_ok (junk := junk) a2.inv hb hset
  rw [hf] at b1
  cases b1
  rw [e2] at b6
  exact ⟨a1, b3, ⟨used, a2⟩, by rw [← e1]; exact hset, b2, b5, b6⟩

theorem all_mapped {s s' : St} {wires : Nat} (h : ∀ x, s'.words x = if x < wires ∧ s.words x = none then some ⟨s.next, cnt s.words x * s.w⟩ else s.words x)
    {x : Nat} (hx : x < wires) : ∃ p, s'.words x = some p := by
  cases hw : s.words x with
  | none => exact ⟨_, by rw [h x, if_pos ⟨hx, hw⟩]⟩
  | some p => exact ⟨p, by rw [h x, if_neg (by rw [hw]; simp), hw]⟩

theorem getWire_ok {s : St} (h : Inv s) {x : Nat} {p : Ptr} (hx : s.words x = some p) : ∃ w, getWire s x = .ok w ∧ w.length = s.w := by
  obtain ⟨w, l1, l2, -⟩ := load_ok (h.bnd x p hx).2
  exact ⟨w, by unfold getWire; rw [hx]; exact l1, l2⟩

/-- Writes do what they do on a list. -/
theorem writes_ok {wires : Nat} : ∀ (l : List (Nat × Word)) (ws : List Word) (s : St), Inv s → (∀ x < wires, ∃ p, s.words x = some p) →
    (∀ p ∈ l, p.1 < wires ∧ p.2.length = s.w) → ws.length = wires → (∀ x < wires, getWire s x = rd ws x) →
    ∃ s', writes l s = .ok s' ∧ Inv s' ∧ s'.words = s.words ∧ Same s s' ∧ ∀ x < wires, getWire s' x = rd (writesTo l ws) x
  | [], ws, s, hi, _, _, _, h => ⟨s, rfl, hi, rfl, .refl s, h⟩
  | (k, w) :: l, ws, s, hi, hm, hl, hw, h => by
    obtain ⟨h1, h2⟩ := hl (k, w) (by simp)
    obtain ⟨p, hp⟩ := hm k h1
    obtain ⟨s1, a1, a2, a3, a4, a5, a6, a7, a8⟩ := setWire_ok hi hp (v := w) h2
    obtain ⟨s2, b1, b2, b3, b4, b5⟩ := writes_ok l (ws.set k w) s1 a2 (fun x hx => by rw [a3]; exact hm x hx)
      (fun q hq => by rw [a5.w]; exact hl q (by simp [hq])) (by rw [List.length_set]; exact hw) (fun x hx => by
        obtain ⟨q, hq⟩ := hm x hx
        rw [a8 x (by rw [hq]; rfl), h x hx]
        rw [rd_ok (by omega), rd_ok (by rw [List.length_set]; omega)]
        by_cases hxk : x = k
        · subst hxk
          rw [if_pos rfl, List.getElem_set_self]
        · rw [if_neg hxk, List.getElem_set_ne (Ne.symm hxk)])
    refine ⟨s2, ?_, b2, b3.trans a3, a5.trans b4, b5⟩
    rw [writes, a1, ok_bind, b1]

theorem writes_keep : ∀ (l : List (Nat × Word)) (s s' : St), Inv s → (∀ p ∈ l, p.2.length = s.w) → writes l s = .ok s' →
    Inv s' ∧ s'.words = s.words ∧ Same s s'
  | [], s, s', hi, _, h => by
    cases h
    exact ⟨hi, rfl, .refl s⟩
  | (k, w) :: l, s, s', hi, hl, h => by
    rw [writes] at h
    cases hp : s.words k with
    | none =>
      have : setWire s k w = .error .ub := by unfold setWire; rw [hp]
      rw [this] at h
      cases h
    | some p =>
      obtain ⟨s1, a1, a2, a3, a4, a5, -⟩ := setWire_ok hi hp (v := w) (hl (k, w) (by simp))
      rw [a1, ok_bind] at h
      obtain ⟨b1, b2, b3⟩ := writes_keep l s1 s' a2 (fun q hq => by rw [a5.w]; exact hl q (by simp [hq])) h
      exact ⟨b1, b2.trans a3, a5.trans b3⟩

section
variable {junk : Nat → Nat → Block} {pad : Nat → Nat → Bool} {n wires next : Nat} {ins outs : List (List Nat)} {heap : Nat → List Block} {ops : List Op}
  {s s' s2 : St}

/-- **C71, inputs and wires.** After any sequence of calls that succeed and the start of `run`, every wire has a word of its own: the
reads and writes of `run` behave like reads and writes of a list with one word for each wire, whatever the order of the calls and
whichever wires share an allocation or lie in a caller's matrix. Every input has been given a value, and bit `r` of wire `j` of the
input is the last value given. -/
theorem C71_wires (_hn : 0 < n) (hS : Setup wires ins outs heap next ops) (h : steps junk pad ops (init n wires ins outs heap next) = .ok s)
    (hf : finalize junk s = .ok s') :
    ∃ ws : List Word, ws.length = wires ∧ (∀ w ∈ ws, w.length = divCeil n 128) ∧
      (∀ (i : Nat) (b : List Nat), ins[i]? = some b → b ≠ [] → ∃ f, values heap ops i = some f ∧
        ∀ j x, b[j]? = some x → ∃ w, ws[x]? = some w ∧ ∀ r < n, (w.getD (r / 128) 0).getLsbD (r % 128) = f j r) ∧
      ∀ l : List (Nat × Word), (∀ p ∈ l, p.1 < wires ∧ p.2.length = divCeil n 128) →
        ∃ s2, writes l s' = .ok s2 ∧ ∀ x < wires, getWire s2 x = rd (writesTo l ws) x := by
  obtain ⟨a1, a2, ⟨used, a3⟩, a4, a5, a6, a7⟩ := finalized hS h hf
  have hw : s'.w = divCeil n 128 := by rw [a2.w, a1.w]; rfl
  have e1 : s.ins = ins := a1.ins
  have e2 : s.n = n := a1.n
  have hm : ∀ x < wires, ∃ p, s'.words x = some p := fun x hx => all_mapped a7 hx
  have hg : ∀ x < wires, ∃ w, getWire s' x = .ok w ∧ w.length = s'.w := fun x hx => by
    obtain ⟨p, hp⟩ := hm x hx
    exact getWire_ok a5 hp
  obtain ⟨ws, hws⟩ : ∃ ws : List Word, ws = (List.range wires).map fun x => (getWire s' x).toOption.getD [] := ⟨_, rfl⟩
  have hlen : ws.length = wires := by simp [hws]
  have hget : ∀ x < wires, getWire s' x = rd ws x := by
    intro x hx
    obtain ⟨w, hw1, -⟩ := hg x hx
    rw [rd_ok (by omega)]
    simp only [hws, List.getElem_map, List.getElem_range, hw1, Except.toOption, Option.getD_some]
  refine ⟨ws, hlen, fun w hwm => ?_, fun i b hb hne => ?_, fun l hl => ?_⟩
  · rw [hws] at hwm
    obtain ⟨x, hx, e⟩ := List.mem_map.1 hwm
    obtain ⟨u, hu1, hu2⟩ := hg x (List.mem_range.1 hx)
    rw [hu1] at e
    rw [← hw, ← hu2, ← e]
    rfl
  · obtain ⟨x0, hx0⟩ := List.exists_mem_of_ne_nil b hne
    cases hv : values heap ops i with
    | none =>
      have := a3.unset i hv b (by rw [e1]; exact hb) x0 hx0
      have h2 := a4 x0 (List.mem_flatten.2 ⟨b, List.mem_of_getElem? hb, hx0⟩)
      rw [this] at h2
      cases h2
    | some f =>
      refine ⟨f, rfl, fun j x hx => ?_⟩
      obtain ⟨w, hw1, hw2⟩ := a3.val i f hv b (by rw [e1]; exact hb) x j hx
      obtain ⟨p, hp⟩ := getWire_some hw1
      have hxw : x < wires := hS.bundles.ins_lt hb (mem_of_getElem? hx)
      have h3 : getWire s' x = .ok w := by
        rw [getWire_congr a2 (by rw [a7 x, if_neg (by rw [hp]; simp)]) fun q hq => a6 _ (a3.inv.bnd x q hq).1]
        exact hw1
      rw [hget x hxw, rd_ok (by omega)] at h3
      refine ⟨w, ?_, fun r hr => hw2 r (by rw [e2]; exact hr)⟩
      rw [List.getElem?_eq_getElem (by omega)]
      exact congrArg some (Except.ok.inj h3)
  · obtain ⟨s2, b1, -, -, -, b5⟩ := writes_ok l ws s' a5 hm (fun p hp => by rw [hw]; exact hl p hp) hlen hget
    exact ⟨s2, b1, b5⟩

theorem consecutive_of {b : List Nat} (hc : ∀ j, (h : j + 1 < b.length) → b[j + 1] = b[j] + 1) : consecutive b = true := by
  induction b with
  | nil => rfl
  | cons x t ih =>
    cases t with
    | nil => rfl
    | cons y t =>
      simp only [consecutive, Bool.and_eq_true, beq_iff_eq]
      refine ⟨(hc 0 (by simp)).symm, ih fun j hj => ?_⟩
      have := hc (j + 1) (by simpa using hj)
      simpa using this

/-- The memory of an output that is not mapped, or mapped without gaps, is contiguous. -/
theorem out_contiguous (hS : Setup wires ins outs heap next ops) (h : steps junk pad ops (init n wires ins outs heap next) = .ok s)
    (hf : finalize junk s = .ok s') {i : Nat} {b : List Nat} (hb : outs[i]? = some b) (hc : consecutive b = true) (hne : 0 < b.length)
    (hd : ∀ d, mapped ops i = some d → d.cols / 16 = divCeil n 128) :
    ∃ p : Ptr, ∀ j, (h : j < b.length) → s'.words b[j] = some ⟨p.reg, p.off + j * s'.w⟩ := by
  obtain ⟨a1, a2, ⟨used, a3⟩, a4, a5, a6, a7⟩ := finalized hS h hf
  have hw : s'.w = divCeil n 128 := by rw [a2.w, a1.w]; rfl
  have e1 : s.outs = outs := a1.outs
  cases ho : mapped ops i with
  | some d =>
    obtain ⟨-, -, -, k4⟩ := a3.outS i b d ho (by rw [e1]; exact hb)
    refine ⟨⟨d.reg, 0⟩, fun j hj => ?_⟩
    have := k4 b[j] j (List.getElem?_eq_getElem hj)
    rw [a7, if_neg (by rw [this]; simp), this, hw, hd d ho]
    simp
  | none =>
    have hu := a3.outN i b ho (by rw [e1]; exact hb)
    have hcnt : ∀ j, (hj : j < b.length) → cnt s.words b[j] = cnt s.words b[0] + j := by
      intro j
      induction j with
      | zero => exact fun _ => rfl
      | succ j ih =>
        intro hj
        have h1 := ih (by omega)
        have h2 := consecutive_get hc j (by omega)
        have h3 := consecutive_get hc (j + 1) hj
        have h4 : b[j + 1] = b[j] + 1 := by omega
        rw [h4, cnt_succ, h1, hu b[j] (List.getElem_mem _)]
        simp
        omega
    refine ⟨⟨s.next, cnt s.words b[0] * s.w⟩, fun j hj => ?_⟩
    rw [a7, if_pos ⟨hS.bundles.outs_lt hb (List.getElem_mem _), hu b[j] (List.getElem_mem _)⟩, hcnt j hj, a2.w, Nat.add_mul]

/-- **C71, outputs.** After the run `getOutput` returns bit `r` of the word of the output's wire `j` as bit `j` of row `r`, for every
output whose wires are consecutive and that is not mapped, or mapped to a matrix whose rows have no more blocks than needed. -/
theorem C71_output (_hn : 0 < n) (hS : Setup wires ins outs heap next ops) (h : steps junk pad ops (init n wires ins outs heap next) = .ok s)
    (hf : finalize junk s = .ok s') {l : List (Nat × Word)} (hl : ∀ p ∈ l, p.2.length = divCeil n 128) (hr : writes l s' = .ok s2)
    {i : Nat} {b : List Nat} (hb : outs[i]? = some b) (hc : ∀ j, (h : j + 1 < b.length) → b[j + 1] = b[j] + 1) (hne : b ≠ [])
    (hd : ∀ d, mapped ops i = some d → d.cols / 16 = divCeil n 128)
    {cols align : Nat} (hcol : (b.length + align * 8 - 1) / (align * 8) = cols / align) :
    ∃ f, getOutput junk s2 i n cols align = .ok f ∧
      ∀ j x, b[j]? = some x → ∃ w, getWire s2 x = .ok w ∧ ∀ r < n, f r j = (w.getD (r / 128) 0).getLsbD (r % 128) := by
  have hcc : consecutive b = true := consecutive_of hc
  have hne' : 0 < b.length := List.length_pos_iff.2 hne
  obtain ⟨p, hp⟩ := out_contiguous hS h hf hb hcc hne' hd
  obtain ⟨a1, a2, -, -, a5, -, -⟩ := finalized hS h hf
  have hw : s'.w = divCeil n 128 := by rw [a2.w, a1.w]; rfl
  obtain ⟨c1, c2, c3⟩ := writes_keep l s' s2 a5 (fun q hq => by rw [hw]; exact hl q hq) hr
  have hS2 := (a1.trans a2).trans c3
  have e1 : s2.outs = outs := hS2.outs
  have e2 : s2.n = n := hS2.n
  have e3 : s2.wires = wires := hS2.wires
  have hp2 : ∀ j, (h : j < b.length) → s2.words b[j] = some ⟨p.reg, p.off + j * s2.w⟩ := fun j hj => by rw [c2, c3.w]; exact hp j hj
  have hm : memView junk s2 b = .ok (p, s2) := memView_old hcc hne' (fun x hx => by rw [e3]; exact hS.bundles.outs_lt hb hx) hp2
  obtain ⟨vs, l1, l2, l3⟩ := loadRows_ok (p := p) c1 b.length 0 b (by omega) hp2
  obtain ⟨hi, ei⟩ := List.getElem?_eq_some_iff.1 hb
  refine ⟨fun r j => ((vs.getD j []).getD (r / 128) 0).getLsbD (r % 128), ?_, fun j x hx => ?_⟩
  · unfold getOutput
    rw [e1, decide_eq_false (by omega), throwIf_false, ok_bind, rd_ok hi, ok_bind, ei, hm, ok_bind]
    simp only
    rw [hcol, e2]
    simp only [bne_self_eq_false, throwIf_false, ok_bind]
    rw [l1, ok_bind]
  · obtain ⟨hj, e⟩ := List.getElem?_eq_some_iff.1 hx
    obtain ⟨hb', e4⟩ := l3 j (by omega)
    simp only [Nat.zero_add] at e4
    rw [e] at e4
    refine ⟨_, e4, fun r hr => ?_⟩
    simp only
    rw [List.getD_eq_getElem?_getD (l := vs), List.getElem?_eq_getElem (by omega), Option.getD_some]

/-- **C71, mapped outputs.** After the run the caller's matrix holds the output: bit `r` of its row `j` is bit `r` of the word of the
output's wire `j`. -/
theorem C71_mapped (_hn : 0 < n) (hS : Setup wires ins outs heap next ops) (h : steps junk pad ops (init n wires ins outs heap next) = .ok s)
    (hf : finalize junk s = .ok s') {l : List (Nat × Word)} (hl : ∀ p ∈ l, p.2.length = divCeil n 128) (hr : writes l s' = .ok s2)
    {i : Nat} {b : List Nat} (hb : outs[i]? = some b) {d : TMat} (hd : mapped ops i = some d) :
    b.length = d.bits ∧ ∀ j x, b[j]? = some x → ∃ w, getWire s2 x = .ok w ∧
      ∀ r < n, matBit (s2.heap d.reg) (d.cols / 16) j r = (w.getD (r / 128) 0).getLsbD (r % 128) := by
  obtain ⟨a1, a2, ⟨used, a3⟩, -, a5, -, a7⟩ := finalized hS h hf
  have hw : s'.w = divCeil n 128 := by rw [a2.w, a1.w]; rfl
  obtain ⟨c1, c2, c3⟩ := writes_keep l s' s2 a5 (fun q hq => by rw [hw]; exact hl q hq) hr
  have e1 : s.outs = outs := a1.outs
  obtain ⟨k1, -, k3, k4⟩ := a3.outS i b d hd (by rw [e1]; exact hb)
  refine ⟨k1, fun j x hx => ?_⟩
  have hx1 := k4 x j hx
  have hx2 : s2.words x = some ⟨d.reg, j * (d.cols / 16)⟩ := by rw [c2, a7, if_neg (by rw [hx1]; simp), hx1]
  obtain ⟨w, l1, l2, l3⟩ := load_ok (c1.bnd _ _ hx2).2
  refine ⟨w, by unfold getWire; rw [hx2]; exact l1, fun r hr => ?_⟩
  have e5 : s2.w = divCeil n 128 := by rw [c3.w, hw]
  unfold matBit
  rw [l3 (r / 128) (by rw [e5]; unfold divCeil; omega)]

/-- **C71, an input that was not set.** `run` throws if an input has not been given a value, and only then. -/
theorem C71_unset (_hn : 0 < n) (hS : Setup wires ins outs heap next ops) (h : steps junk pad ops (init n wires ins outs heap next) = .ok s) :
    ((∃ i b, ins[i]? = some b ∧ b ≠ [] ∧ values heap ops i = none) → finalize junk s = .error .throw) ∧
    ((∀ i b, ins[i]? = some b → b ≠ [] → (values heap ops i).isSome) → ∃ s', finalize junk s = .ok s') := by
  obtain ⟨a1, used, a2⟩ := setup_good hS h
  have e1 : s.ins = ins := a1.ins
  have e2 : s.wires = wires := a1.wires
  have hb : ∀ x ∈ s.ins.flatten, x < s.wires := by
    intro x hx
    rw [e1] at hx
    rw [e2]
    exact hS.bundles.bound x (by rw [List.flatten_append]; exact List.mem_append.2 (.inl hx))
  constructor
  · rintro ⟨i, b, hi, hne, hv⟩
    obtain ⟨x, hx⟩ := List.exists_mem_of_ne_nil b hne
    have h1 := a2.unset i hv b (by rw [e1]; exact hi) x hx
    unfold finalize
    rw [(inputsSet_ok hb).2 fun hc => ?_]
    · rfl
    · have := hc x (by rw [e1]; exact List.mem_flatten.2 ⟨b, List.mem_of_getElem? hi, hx⟩)
      rw [h1] at this
      cases this
  · intro hall
    obtain ⟨s', hs', -⟩ := finalize_ok (junk := junk) a2.inv hb fun x hx => by
      obtain ⟨i, b, hi, hxb⟩ := flatten_ins hx
      rw [e1] at hi
      obtain ⟨f, hf⟩ := Option.isSome_iff_exists.1 (hall i b hi (List.ne_nil_of_mem hxb))
      obtain ⟨j, hj, e⟩ := List.getElem_of_mem hxb
      obtain ⟨w, hw, -⟩ := a2.val i f hf b (by rw [e1]; exact hi) x j (by rw [List.getElem?_eq_getElem hj, e])
      obtain ⟨p, hp⟩ := getWire_some hw
      rw [hp]
      rfl
    exact ⟨s', hs'⟩

/-- A call whose arguments have the right sizes. -/
def Fits (n : Nat) (ins outs : List (List Nat)) : Op → Prop
  | .setInput i rows cols align => ∃ b, ins[i]? = some b ∧ b ≠ [] ∧ (∀ j, (h : j + 1 < b.length) → b[j + 1] = b[j] + 1) ∧
      (b.length + align * 8 - 1) / (align * 8) = cols / align ∧ rows.length = n
  | .setZero i => ∃ b, ins[i]? = some b ∧ b ≠ [] ∧ ∀ j, (h : j + 1 < b.length) → b[j + 1] = b[j] + 1
  | .mapInput i d => ∃ b, ins[i]? = some b ∧ b.length = d.bits ∧ n = d.entries ∧ d.cols % 16 = 0
  | .mapOutput i d => ∃ b, outs[i]? = some b ∧ b.length = d.bits ∧ n = d.entries ∧ d.cols % 16 = 0

theorem mapBundle_ok {L : List (List Nat)} {i : Nat} {d : TMat} {b : List Nat} (h1 : L[i]? = some b) (h2 : b.length = d.bits) (h3 : s.n = d.entries)
    (h4 : d.cols % 16 = 0) : mapBundle L s i d = mapRows d.reg (d.cols / 16) b 0 s := by
  obtain ⟨hi, e⟩ := List.getElem?_eq_some_iff.1 h1
  unfold mapBundle
  rw [decide_eq_false (by omega), throwIf_false, ok_bind, rd_ok hi, ok_bind, e, h2, h3, h4]
  simp only [bne_self_eq_false, throwIf_false, ok_bind]

theorem Good.step_ok {v : Nat → Option (Nat → Nat → Bool)} {o : Nat → Option TMat} {used : List Nat} (h : Good heap next v o used s)
    (hb : Bundles s.wires s.ins s.outs) {op : Op} (hd : ∀ d, op.mat = some d → MatOk heap next d ∧ d.reg ∉ used) (hfit : Fits s.n s.ins s.outs op)
    (hv : ∀ i f, op.value heap = some (i, f) → v i = none) (ho : ∀ i d, op.out = some (i, d) → o i = none) : ∃ s', Wires.step junk pad s op = .ok s' := by
  have hcore : ∀ {b : List Nat} {d : TMat}, b.Nodup → (∀ x ∈ b, x < s.wires ∧ s.words x = none) → MatOk heap next d → d.reg ∉ used → b.length = d.bits → s.n = d.entries →
      d.cols % 16 = 0 → ∃ s', mapRows d.reg (d.cols / 16) b 0 s = .ok s' := by
    intro b d k0 k1 hm hu k2 k3 k4
    obtain ⟨s', e, -⟩ := mapRows_ok d.reg (d.cols / 16) b 0 s h.inv (Nat.lt_of_lt_of_le hm.reg h.le) (by
        unfold St.w width divCeil
        have := hm.row
        omega) k0 k1 (by rw [h.ext _ hm.reg hu, hm.len, k2]; omega) (fun i p hp he => by
          rcases h.regs i p hp with h1 | h1
          · have := hm.reg
            omega
          · exact absurd (he ▸ h1) hu)
    exact ⟨s', e⟩
  cases op with
  | setInput i rows cols align =>
    obtain ⟨b, h1, h2, h3, h4, h5⟩ := hfit
    obtain ⟨hi, e⟩ := List.getElem?_eq_some_iff.1 h1
    obtain ⟨p, s1, hm⟩ := memView_new (junk := junk) h.inv (consecutive_of h3) (List.length_pos_iff.2 h2) fun x hx => ⟨hb.ins_lt h1 hx, h.unset i (hv i _ rfl) b h1 x hx⟩
    obtain ⟨-, hS, -⟩ := memView_inv h.inv hm
    obtain ⟨s2, a1, -⟩ := h.write hb h1 hm (f := column s.w pad rows) (column_length _ _ _) (g := fun j r => rowBit (rows.getD r []) j)
      (fun j r hr => column_bit (by omega) (lt_width hr) j)
    refine ⟨s2, ?_⟩
    simp only [Wires.step, setInput]
    rw [decide_eq_false (by omega), throwIf_false, ok_bind, rd_ok hi, ok_bind, e, hm, ok_bind]
    simp only
    rw [h4, h5, hS.n, hS.w]
    simp only [bne_self_eq_false, throwIf_false, ok_bind]
    exact a1
  | setZero i =>
    obtain ⟨b, h1, h2, h3⟩ := hfit
    obtain ⟨hi, e⟩ := List.getElem?_eq_some_iff.1 h1
    obtain ⟨p, s1, hm⟩ := memView_new (junk := junk) h.inv (consecutive_of h3) (List.length_pos_iff.2 h2) fun x hx => ⟨hb.ins_lt h1 hx, h.unset i (hv i _ rfl) b h1 x hx⟩
    obtain ⟨-, hS, -⟩ := memView_inv h.inv hm
    obtain ⟨s2, a1, -⟩ := h.write hb h1 hm (f := fun _ => List.replicate s.w 0) (fun _ => List.length_replicate) (g := fun _ _ => false)
      (fun j r hr => wbit_zero _ _)
    refine ⟨s2, ?_⟩
    simp only [Wires.step, setZero]
    rw [decide_eq_false (by omega), throwIf_false, ok_bind, rd_ok hi, ok_bind, e, hm, ok_bind]
    simp only
    rw [hS.w]
    exact a1
  | mapInput i d =>
    obtain ⟨b, h1, h2, h3, h4⟩ := hfit
    obtain ⟨k1, k2⟩ := hd d rfl
    simp only [Wires.step]
    rw [mapBundle_ok h1 h2 h3 h4]
    exact hcore (hb.ins_nodup h1) (fun x hx => ⟨hb.ins_lt h1 hx, h.unset i (hv i _ rfl) b h1 x hx⟩) k1 k2 h2 h3 h4
  | mapOutput i d =>
    obtain ⟨b, h1, h2, h3, h4⟩ := hfit
    obtain ⟨k1, k2⟩ := hd d rfl
    simp only [Wires.step]
    rw [mapBundle_ok h1 h2 h3 h4]
    exact hcore (hb.outs_nodup h1) (fun x hx => ⟨hb.outs_lt h1 hx, h.outN i b (ho i _ rfl) h1 x hx⟩) k1 k2 h2 h3 h4

theorem steps_ok : ∀ (ops : List Op) {v : Nat → Option (Nat → Nat → Bool)} {o : Nat → Option TMat} {used : List Nat} {s : St}, Good heap next v o used s →
    Bundles s.wires s.ins s.outs → (∀ d ∈ ops.filterMap Op.mat, MatOk heap next d ∧ d.reg ∉ used) → ((ops.filterMap Op.mat).map TMat.reg).Nodup →
    (∀ op ∈ ops, Fits s.n s.ins s.outs op) → (∀ i ∈ ops.filterMap fun op => (op.value heap).map Prod.fst, v i = none) →
    (ops.filterMap fun op => (op.value heap).map Prod.fst).Nodup → (∀ i ∈ ops.filterMap fun op => op.out.map Prod.fst, o i = none) →
    (ops.filterMap fun op => op.out.map Prod.fst).Nodup → ∃ s', Wires.steps junk pad ops s = .ok s'
  | [], _, _, _, s, _, _, _, _, _, _, _, _, _ => ⟨s, rfl⟩
  | op :: ops, v, o, used, s, h, hb, hd, hn, hf, hv, hvn, ho, hon => by
    have hd1 : ∀ d, op.mat = some d → MatOk heap next d ∧ d.reg ∉ used := fun d e => hd d (by
      rw [List.filterMap_cons, e]
      simp)
    obtain ⟨s1, h1⟩ := h.step_ok (junk := junk) (pad := pad) hb hd1 (hf op (by simp))
      (fun i f e => hv i (by rw [List.filterMap_cons, e]; simp)) (fun i d e => ho i (by rw [List.filterMap_cons, e]; simp))
    obtain ⟨a1, a2⟩ := h.step hb hd1 h1
    have hd2 : (∀ d ∈ ops.filterMap Op.mat, MatOk heap next d ∧ d.reg ∉ (op.mat.map TMat.reg).toList ++ used) ∧ ((ops.filterMap Op.mat).map TMat.reg).Nodup := by
      cases e : op.mat with
      | none =>
        rw [List.filterMap_cons, e] at hd hn
        exact ⟨hd, hn⟩
      | some d0 =>
        rw [List.filterMap_cons, e] at hd hn
        simp only [List.map_cons, List.nodup_cons] at hn
        refine ⟨fun d hdm => ⟨(hd d (by simp [hdm])).1, ?_⟩, hn.2⟩
        have h2 := (hd d (by simp [hdm])).2
        simp only [Option.map_some, Option.toList_some, List.singleton_append, List.mem_cons, not_or]
        refine ⟨fun e2 => hn.1 ?_, h2⟩
        rw [← e2]
        exact List.mem_map.2 ⟨d, hdm, rfl⟩
    have hv2 : (∀ i ∈ ops.filterMap fun op => (op.value heap).map Prod.fst, addValue heap v op i = none) ∧
        (ops.filterMap fun op => (op.value heap).map Prod.fst).Nodup := by
      rw [List.filterMap_cons] at hv hvn
      unfold addValue
      cases e : op.value heap with
      | none =>
        rw [e] at hv hvn
        exact ⟨hv, hvn⟩
      | some q =>
        rw [e] at hv hvn
        simp only [Option.map_some, List.nodup_cons] at hv hvn
        refine ⟨fun i hi => ?_, hvn.2⟩
        simp only
        have hne : i ≠ q.1 := fun e2 => hvn.1 (e2 ▸ hi)
        rw [Function.update_of_ne hne]
        exact hv i (List.mem_cons_of_mem _ hi)
    have ho2 : (∀ i ∈ ops.filterMap fun op => op.out.map Prod.fst, addOut o op i = none) ∧ (ops.filterMap fun op => op.out.map Prod.fst).Nodup := by
      rw [List.filterMap_cons] at ho hon
      unfold addOut
      cases e : op.out with
      | none =>
        rw [e] at ho hon
        exact ⟨ho, hon⟩
      | some q =>
        rw [e] at ho hon
        simp only [Option.map_some, List.nodup_cons] at ho hon
        refine ⟨fun i hi => ?_, hon.2⟩
        simp only
        have hne : i ≠ q.1 := fun e2 => hon.1 (e2 ▸ hi)
        rw [Function.update_of_ne hne]
        exact ho i (List.mem_cons_of_mem _ hi)
    obtain ⟨s2, b1⟩ := steps_ok ops a2 (by rw [a1.wires, a1.ins, a1.outs]; exact hb) hd2.1 hd2.2
      (fun op' hop => by rw [a1.n, a1.ins, a1.outs]; exact hf op' (by simp [hop])) hv2.1 hv2.2 ho2.1 ho2.2
    exact ⟨s2, by rw [Wires.steps, h1, ok_bind, b1]⟩

/-- **C71, calls that succeed.** Calls with arguments of the right sizes succeed, if every input is set once and every output is mapped at
most once. -/
theorem C71_accepted (_hn : 0 < n) (hS : Setup wires ins outs heap next ops) (hf : ∀ op ∈ ops, Fits n ins outs op)
    (h1 : (ops.filterMap fun op => (op.value heap).map Prod.fst).Nodup) (h2 : (ops.filterMap fun op => op.out.map Prod.fst).Nodup) :
    ∃ s, Wires.steps junk pad ops (init n wires ins outs heap next) = .ok s :=
  steps_ok ops (init_good n wires ins outs heap next) hS.bundles (fun d hd => ⟨hS.mats d hd, by simp⟩) hS.distinct hf (fun _ _ => rfl) h1 (fun _ _ => rfl) h2

theorem contiguous_total {s : St} : ∀ {b : List Nat}, (∀ x ∈ b, x < s.wires) → ∃ c, contiguous s b = .ok c
  | [], _ => ⟨true, rfl⟩
  | [_], _ => ⟨true, rfl⟩
  | x :: y :: l, h => by
    rw [contiguous, if_neg (by have h1 := h x (by simp); have h2 := h y (by simp); omega)]
    cases s.words x with
    | none => exact ⟨false, rfl⟩
    | some p =>
      cases s.words y with
      | none => exact ⟨false, rfl⟩
      | some q =>
        simp only
        split
        · exact contiguous_total fun z hz => h z (by simp [hz])
        · exact ⟨false, rfl⟩

theorem mapRows_throw (reg stride : Nat) : ∀ (xs : List Nat) (off : Nat) (s : St) (e : Err), mapRows reg stride xs off s = .error e → e = .throw
  | [], _, _, _, h => by cases h
  | x :: xs, off, s, e, h => by
    rw [mapRows] at h
    cases hm : map s x ⟨reg, off⟩ with
    | ok s1 =>
      rw [hm, ok_bind] at h
      exact mapRows_throw reg stride xs _ s1 e h
    | error e1 =>
      rw [hm, err_bind] at h
      cases h
      unfold map at hm
      by_cases hx : s.wires ≤ x
      · rw [decide_eq_true hx] at hm
        exact (Except.error.inj hm).symm
      · rw [decide_eq_false hx, throwIf_false, ok_bind] at hm
        cases hw : s.words x with
        | none => rw [hw] at hm; cases hm
        | some q =>
          rw [hw] at hm
          exact (Except.error.inj hm).symm

/-- A bundle with wires of the circuit is viewed or refused. -/
theorem memView_throw {b : List Nat} (hne : b ≠ []) (hb : ∀ x ∈ b, x < s.wires) {e : Err} (h : memView junk s b = .error e) : e = .throw := by
  unfold memView at h
  cases hc : consecutive b with
  | false =>
    rw [hc] at h
    exact (Except.error.inj h).symm
  | true =>
    rw [hc] at h
    simp only [Bool.not_true, throwIf_false, ok_bind] at h
    cases b with
    | nil => exact absurd rfl hne
    | cons x l =>
      have hx := hb x (by simp)
      simp only at h
      rw [if_neg (by omega)] at h
      cases hw : s.words x with
      | some q =>
        rw [hw] at h
        obtain ⟨c, hg⟩ := contiguous_total hb
        simp only at h
        rw [hg, ok_bind] at h
        cases c with
        | false => exact (Except.error.inj h).symm
        | true => cases h
      | none =>
        rw [hw] at h
        simp only at h
        cases hm : mapRows (alloc junk s ((x :: l).length * s.w)).1 (alloc junk s ((x :: l).length * s.w)).2.w (x :: l) 0 (alloc junk s ((x :: l).length * s.w)).2 with
        | ok _ => rw [hm] at h; cases h
        | error e1 =>
          rw [hm, err_bind] at h
          cases h
          exact mapRows_throw _ _ _ _ _ _ hm

theorem mapRows_mapped (reg stride : Nat) : ∀ (xs : List Nat) (off : Nat) (s : St), (∃ x ∈ xs, (s.words x).isSome) → mapRows reg stride xs off s = .error .throw
  := by
  intro xs off s ⟨x, hx, hw⟩
  cases h : mapRows reg stride xs off s with
  | error e => rw [mapRows_throw _ _ _ _ _ _ h]
  | ok s1 =>
    have := ((mapRows_inv _ _ _ _ _ _ h).2.1 x hx).2
    rw [this] at hw
    cases hw

theorem mapBundle_throw {L : List (List Nat)} {i : Nat} {d : TMat}
    (h : ∀ b, L[i]? = some b → b.length ≠ d.bits ∨ s.n ≠ d.entries ∨ d.cols % 16 ≠ 0 ∨ ∃ x ∈ b, (s.words x).isSome) : mapBundle L s i d = .error .throw := by
  by_cases hi : L.length ≤ i
  · unfold mapBundle
    rw [decide_eq_true hi]
    rfl
  · have hb : L[i]? = some L[i] := List.getElem?_eq_getElem (by omega)
    have := h _ hb
    by_cases h1 : L[i].length = d.bits
    · by_cases h2 : s.n = d.entries
      · by_cases h3 : d.cols % 16 = 0
        · rw [mapBundle_ok hb h1 h2 h3]
          rcases this with h4 | h4 | h4 | h4
          · exact absurd h1 h4
          · exact absurd h2 h4
          · exact absurd h3 h4
          · exact mapRows_mapped _ _ _ _ _ h4
        · unfold mapBundle
          rw [decide_eq_false hi, throwIf_false, ok_bind, rd_ok (by omega), ok_bind, h1, h2]
          simp [throwIf, h3, ok_bind, err_bind]
      · unfold mapBundle
        rw [decide_eq_false hi, throwIf_false, ok_bind, rd_ok (by omega), ok_bind, h1]
        simp [throwIf, h2, ok_bind, err_bind]
    · unfold mapBundle
      rw [decide_eq_false hi, throwIf_false, ok_bind, rd_ok (by omega), ok_bind]
      simp [throwIf, h1, err_bind]

/-- **C71, calls that are refused**, in any state reached by calls that succeeded: an input or output that does not exist; a mapped matrix
with another number of rows, another number of entries or rows that are not whole blocks; an input mapped after it was set, or an output
mapped twice; a copied input of another size; an input or output whose wires are not consecutive, unless it is mapped. The exception is thrown before anything is written out of bounds. -/
theorem C71_refused (_hn : 0 < n) (hS : Setup wires ins outs heap next ops) (h : Wires.steps junk pad ops (init n wires ins outs heap next) = .ok s) (i : Nat) :
    (ins.length ≤ i → (∀ rows cols align, Wires.step junk pad s (.setInput i rows cols align) = .error .throw) ∧
      Wires.step junk pad s (.setZero i) = .error .throw ∧ ∀ d, Wires.step junk pad s (.mapInput i d) = .error .throw) ∧
    (outs.length ≤ i → ∀ d, Wires.step junk pad s (.mapOutput i d) = .error .throw) ∧
    (∀ b d, ins[i]? = some b → b.length ≠ d.bits ∨ n ≠ d.entries ∨ d.cols % 16 ≠ 0 ∨ (b ≠ [] ∧ (values heap ops i).isSome) →
      Wires.step junk pad s (.mapInput i d) = .error .throw) ∧
    (∀ b d, outs[i]? = some b → b.length ≠ d.bits ∨ n ≠ d.entries ∨ d.cols % 16 ≠ 0 ∨ (b ≠ [] ∧ (mapped ops i).isSome) →
      Wires.step junk pad s (.mapOutput i d) = .error .throw) ∧
    (∀ b rows cols align, ins[i]? = some b → b ≠ [] → rows.length ≠ n ∨ (b.length + align * 8 - 1) / (align * 8) ≠ cols / align →
      Wires.step junk pad s (.setInput i rows cols align) = .error .throw) ∧
    (∀ b, ins[i]? = some b → (∃ j, ∃ h : j + 1 < b.length, b[j + 1] ≠ b[j] + 1) → Wires.step junk pad s (.setZero i) = .error .throw ∧
      ∀ rows cols align, Wires.step junk pad s (.setInput i rows cols align) = .error .throw) ∧
    (∀ b, outs[i]? = some b → (∃ j, ∃ h : j + 1 < b.length, b[j + 1] ≠ b[j] + 1) → ∀ rows cols align,
      getOutput junk s i rows cols align = .error .throw) := by
  have gap : ∀ (s : St) (b : List Nat), (∃ j, ∃ h : j + 1 < b.length, b[j + 1] ≠ b[j] + 1) → memView junk s b = .error .throw := by
    rintro s b ⟨j, hj, hne⟩
    have : consecutive b = false := by
      cases hc : consecutive b with
      | false => rfl
      | true => exact absurd (by rw [consecutive_get hc (j + 1) hj, consecutive_get hc j (by omega)]; omega) hne
    unfold memView
    rw [this]
    rfl
  obtain ⟨a1, used, a2⟩ := setup_good hS h
  have e1 : s.ins = ins := a1.ins
  have e2 : s.outs = outs := a1.outs
  have e3 : s.n = n := a1.n
  have e4 : s.wires = wires := a1.wires
  refine ⟨fun hi => ⟨fun rows cols align => ?_, ?_, fun d => ?_⟩, fun hi d => ?_, fun b d hb hbad => ?_, fun b d hb hbad => ?_, fun b rows cols align hb hne hbad => ?_,
    fun b hb hbad => ⟨?_, fun rows cols align => ?_⟩, fun b hb hbad rows cols align => ?_⟩
  · simp only [Wires.step, setInput]
    rw [e1, decide_eq_true hi]
    rfl
  · simp only [Wires.step, setZero]
    rw [e1, decide_eq_true hi]
    rfl
  · simp only [Wires.step]
    refine mapBundle_throw fun b hb => ?_
    rw [e1, List.getElem?_eq_none hi] at hb
    cases hb
  · simp only [Wires.step]
    refine mapBundle_throw fun b hb => ?_
    rw [e2, List.getElem?_eq_none hi] at hb
    cases hb
  · simp only [Wires.step]
    refine mapBundle_throw fun b' hb' => ?_
    rw [e1, hb] at hb'
    cases hb'
    rw [e3]
    rcases hbad with h1 | h1 | h1 | ⟨h1, h2⟩
    · exact .inl h1
    · exact .inr (.inl h1)
    · exact .inr (.inr (.inl h1))
    · refine .inr (.inr (.inr ?_))
      obtain ⟨f, hf⟩ := Option.isSome_iff_exists.1 h2
      obtain ⟨x, hx⟩ := List.exists_mem_of_ne_nil b h1
      obtain ⟨j, hj, e⟩ := List.getElem_of_mem hx
      obtain ⟨w, hw, -⟩ := a2.val i f hf b (by rw [e1]; exact hb) x j (by rw [List.getElem?_eq_getElem hj, e])
      obtain ⟨p, hp⟩ := getWire_some hw
      exact ⟨x, hx, by rw [hp]; rfl⟩
  · simp only [Wires.step]
    refine mapBundle_throw fun b' hb' => ?_
    rw [e2, hb] at hb'
    cases hb'
    rw [e3]
    rcases hbad with h1 | h1 | h1 | ⟨h1, h2⟩
    · exact .inl h1
    · exact .inr (.inl h1)
    · exact .inr (.inr (.inl h1))
    · refine .inr (.inr (.inr ?_))
      obtain ⟨d', hd'⟩ := Option.isSome_iff_exists.1 h2
      obtain ⟨x, hx⟩ := List.exists_mem_of_ne_nil b h1
      obtain ⟨j, hj, e⟩ := List.getElem_of_mem hx
      obtain ⟨-, -, -, k4⟩ := a2.outS i b d' hd' (by rw [e2]; exact hb)
      exact ⟨x, hx, by rw [k4 x j (by rw [List.getElem?_eq_getElem hj, e])]; rfl⟩
  · obtain ⟨hi, e⟩ := List.getElem?_eq_some_iff.1 hb
    simp only [Wires.step, setInput]
    rw [e1, decide_eq_false (by omega), throwIf_false, ok_bind, rd_ok hi, ok_bind, e]
    cases hm : memView junk s b with
    | error e' =>
      rw [memView_throw hne (fun x hx => by rw [e4]; exact hS.bundles.ins_lt hb hx) hm]
      rfl
    | ok q =>
      obtain ⟨p, s1⟩ := q
      obtain ⟨-, hSm, -⟩ := memView_inv a2.inv hm
      rw [ok_bind]
      simp only
      rw [hSm.n, e3]
      by_cases h1 : (b.length + align * 8 - 1) / (align * 8) = cols / align
      · rcases hbad with h2 | h2
        · rw [h1]
          simp [throwIf, h2, ok_bind, err_bind]
        · exact absurd h1 h2
      · simp [throwIf, h1, err_bind]
  · obtain ⟨hi, e⟩ := List.getElem?_eq_some_iff.1 hb
    simp only [Wires.step, setZero]
    rw [e1, decide_eq_false (by omega), throwIf_false, ok_bind, rd_ok hi, ok_bind, e, gap s b hbad]
    rfl
  · obtain ⟨hi, e⟩ := List.getElem?_eq_some_iff.1 hb
    simp only [Wires.step, setInput]
    rw [e1, decide_eq_false (by omega), throwIf_false, ok_bind, rd_ok hi, ok_bind, e, gap s b hbad]
    rfl
  · obtain ⟨hi, e⟩ := List.getElem?_eq_some_iff.1 hb
    simp only [getOutput]
    rw [e2, decide_eq_false (by omega), throwIf_false, ok_bind, rd_ok hi, ok_bind, e, gap s b hbad]
    rfl

/-- **C71, a mapped output cannot always be copied.** `getOutput` throws for an output of two or more wires that is mapped to a matrix whose
rows have more blocks than needed: `getMemView` only knows rows without gaps. -/
theorem C71_gap (_hn : 0 < n) (hS : Setup wires ins outs heap next ops) (h : Wires.steps junk pad ops (init n wires ins outs heap next) = .ok s)
    (hf : finalize junk s = .ok s') {i : Nat} {b : List Nat} (hb : outs[i]? = some b) (hb2 : 2 ≤ b.length) {d : TMat} (hd : mapped ops i = some d)
    (hgap : d.cols / 16 ≠ divCeil n 128) (rows cols align : Nat) : getOutput junk s' i rows cols align = .error .throw := by
  obtain ⟨a1, a2, ⟨used, a3⟩, -, a5, -, a7⟩ := finalized hS h hf
  have hw : s'.w = divCeil n 128 := by rw [a2.w, a1.w]; rfl
  have e1 : s.outs = outs := a1.outs
  have e2 : s'.outs = outs := (a1.trans a2).outs
  have e3 : s'.wires = wires := (a1.trans a2).wires
  obtain ⟨-, -, -, k4⟩ := a3.outS i b d hd (by rw [e1]; exact hb)
  have hk : ∀ j, (hj : j < b.length) → s'.words b[j] = some ⟨d.reg, j * (d.cols / 16)⟩ := fun j hj => by
    have := k4 b[j] j (List.getElem?_eq_getElem hj)
    rw [a7, if_neg (by rw [this]; simp), this]
  obtain ⟨hi, ei⟩ := List.getElem?_eq_some_iff.1 hb
  unfold getOutput
  rw [e2, decide_eq_false (by omega), throwIf_false, ok_bind, rd_ok hi, ok_bind, ei]
  cases hm : memView junk s' b with
  | error e' =>
    rw [memView_throw (fun e => by rw [e] at hb2; simp at hb2) (fun x hx => by rw [e3]; exact hS.bundles.outs_lt hb hx) hm]
    rfl
  | ok q =>
    obtain ⟨p, s1⟩ := q
    obtain ⟨-, -, -, -, m5, -, -, -, m9⟩ := memView_inv a5 hm
    have h0 := m5 0 (by omega)
    have h1 := m5 1 (by omega)
    rcases m9 with m9 | m9
    · have hz := hk 0 (by omega)
      exfalso
      -- the wires have memory, so nothing is allocated
      unfold memView at hm
      cases b with
      | nil => simp at hb2
      | cons x t =>
        simp only [List.getElem_cons_zero] at hz
        cases hc : consecutive (x :: t) with
        | false => rw [hc] at hm; cases hm
        | true =>
          rw [hc] at hm
          simp only [Bool.not_true, throwIf_false, ok_bind] at hm
          rw [if_neg (by have := hS.bundles.outs_lt hb (x := x) (by simp); omega), hz] at hm
          simp only at hm
          cases hg : contiguous s' (x :: t) with
          | error _ => rw [hg] at hm; cases hm
          | ok c =>
            rw [hg, ok_bind] at hm
            cases c with
            | false => cases hm
            | true =>
              simp only [Bool.not_true, throwIf_false, ok_bind] at hm
              cases hm
              have := (a5.bnd _ _ hz).1
              simp only at this m9
              omega
    · rw [m9, hk 0 (by omega)] at h0
      rw [m9, hk 1 (by omega)] at h1
      simp only [Option.some.injEq, Ptr.mk.injEq] at h0 h1
      omega

/-- **C71 is false for the index one past the last output.** The overload of `getOutput` for a `BinMatrix` tests `i > size` and reads the
bundle out of bounds. -/
theorem C71_false (s : St) (rows bits : Nat) : getOutputBin junk s s.outs.length rows bits = .error .ub := by
  unfold getOutputBin
  rw [decide_eq_false (by omega), throwIf_false, ok_bind]
  have : rd s.outs s.outs.length = .error .ub := by simp [rd]
  rw [this]
  rfl

/-- For the indices of the other overload the two agree. -/
theorem C71_bin (s : St) {i : Nat} {b : List Nat} (hb : s.outs[i]? = some b) (rows bits : Nat) :
    getOutputBin junk s i rows bits = if bits = b.length then getOutput junk s i rows (divCeil bits 8) 1 else .error .throw := by
  obtain ⟨hi, e⟩ := List.getElem?_eq_some_iff.1 hb
  unfold getOutputBin
  rw [decide_eq_false (by omega), throwIf_false, ok_bind, rd_ok hi, ok_bind, e]
  by_cases h : bits = b.length
  · rw [if_pos h, h]
    simp only [bne_self_eq_false, throwIf_false, ok_bind]
  · rw [if_neg h]
    simp [throwIf, h, err_bind]

end

/-! ## An example: 130 instances of a circuit with seven wires, two inputs and two outputs -/
namespace Ex

def ops : List Op := [.mapOutput 0 ⟨0, 2, 32, 130⟩, .setInput 0 (List.replicate 130 [3]) 1 1, .mapInput 1 ⟨1, 2, 48, 130⟩]
def heap : Nat → List Block := fun r => if r = 0 then List.replicate 4 0 else List.replicate 6 5

theorem setup : Setup 7 [[0, 1], [2, 3]] [[4, 5], [6]] heap 2 ops := by
  refine ⟨⟨by decide, by decide⟩, fun d hd => ?_, by decide⟩
  have : d = ⟨0, 2, 32, 130⟩ ∨ d = ⟨1, 2, 48, 130⟩ := by simpa [ops, Op.mat, eq_comm (b := d)] using hd
  rcases this with rfl | rfl
  · exact ⟨by decide, rfl, by decide⟩
  · exact ⟨by decide, rfl, by decide⟩

theorem consec {x : Nat} : ∀ j, (h : j + 1 < [x, x + 1].length) → [x, x + 1][j + 1] = [x, x + 1][j]'(by omega) + 1 := by
  intro j h
  have : j = 0 := by simp at h; omega
  subst this
  rfl

theorem fits : ∀ op ∈ ops, Fits 130 [[0, 1], [2, 3]] [[4, 5], [6]] op := by
  intro op hop
  simp only [ops, List.mem_cons, List.not_mem_nil, or_false] at hop
  rcases hop with rfl | rfl | rfl
  · exact ⟨[4, 5], rfl, rfl, rfl, rfl⟩
  · exact ⟨[0, 1], rfl, by simp, consec, rfl, List.length_replicate⟩
  · exact ⟨[2, 3], rfl, rfl, rfl, rfl⟩

/-- The calls succeed and `run` starts. -/
theorem runs (junk : Nat → Nat → Block) (pad : Nat → Nat → Bool) :
    ∃ s s', steps junk pad ops (init 130 7 [[0, 1], [2, 3]] [[4, 5], [6]] heap 2) = .ok s ∧ finalize junk s = .ok s' := by
  obtain ⟨s, hs⟩ := C71_accepted (junk := junk) (pad := pad) (n := 130) (by decide) setup fits (by decide) (by decide)
  obtain ⟨s', hs'⟩ := (C71_unset (junk := junk) (by decide) setup hs).2 (fun i b hb _ => by
    match i, hb with
    | 0, _ => rfl
    | 1, _ => rfl)
  exact ⟨s, s', hs, hs'⟩

/-- so that the theorems apply: wire 3 is bit 1 of input 1, the second row of the caller's matrix, -/
example (junk : Nat → Nat → Block) (pad : Nat → Nat → Bool) : ∃ ws : List Word, ws.length = 7 ∧ ∃ w, ws[3]? = some w ∧ (w.getD 1 0).getLsbD 0 = true := by
  obtain ⟨s, s', hs, hs'⟩ := runs junk pad
  obtain ⟨ws, h1, -, h3, -⟩ := C71_wires (by decide) setup hs hs'
  obtain ⟨f, hf, h4⟩ := h3 1 [2, 3] rfl (by simp)
  obtain ⟨w, hw, h5⟩ := h4 1 3 rfl
  refine ⟨ws, h1, w, hw, ?_⟩
  have := h5 128 (by decide)
  have e : values heap ops 1 = some (matBit (heap 1) (48 / 16)) := rfl
  rw [e] at hf
  cases hf
  exact this.trans (by decide)

/-- and after a write of wire 5 the caller's matrix of output 0 holds it, `getOutput` returns it, too. -/
example (junk : Nat → Nat → Block) (pad : Nat → Nat → Bool) : ∃ s s' s2, steps junk pad ops (init 130 7 [[0, 1], [2, 3]] [[4, 5], [6]] heap 2) = .ok s ∧
    finalize junk s = .ok s' ∧ writes [(5, [7, 1])] s' = .ok s2 ∧ matBit (s2.heap 0) 2 1 128 = true ∧
    ∃ f, getOutput junk s2 0 130 1 1 = .ok f ∧ f 128 1 = true := by
  obtain ⟨s, s', hs, hs'⟩ := runs junk pad
  obtain ⟨ws, h1, h2, -, h4⟩ := C71_wires (by decide) setup hs hs'
  obtain ⟨s2, hr, hg⟩ := h4 [(5, [7, 1])] (by simp [divCeil])
  obtain ⟨-, hm⟩ := C71_mapped (by decide) setup hs hs' (l := [(5, [7, 1])]) (by simp [divCeil]) hr (i := 0) (b := [4, 5]) rfl (d := ⟨0, 2, 32, 130⟩) rfl
  obtain ⟨f, hf, ho⟩ := C71_output (by decide) setup hs hs' (l := [(5, [7, 1])]) (by simp [divCeil]) hr (i := 0) (b := [4, 5]) rfl consec (by simp)
    (fun d hd => by
      have e : mapped ops 0 = some ⟨0, 2, 32, 130⟩ := rfl
      rw [e] at hd
      cases hd
      rfl) (cols := 1) (align := 1) rfl
  have h5 : getWire s2 5 = .ok [7, 1] := by
    rw [hg 5 (by decide), writesTo, rd_ok (by simp [h1])]
    simp
  refine ⟨s, s', s2, hs, hs', hr, ?_, f, hf, ?_⟩
  · obtain ⟨w, e, h⟩ := hm 1 5 rfl
    rw [h5] at e
    cases e
    exact (h 128 (by decide)).trans rfl
  · obtain ⟨w, e, h⟩ := ho 1 5 rfl
    rw [h5] at e
    cases e
    rw [h 128 (by decide)]
    rfl

end Ex

end Wires
end Gmw
end SecJoin
